import Verif.Spec.CacheThreads
import Verif.Props.OperatorCache

/-!
# C101: one operator object used by several threads
-/

namespace Imate.Props.CacheThreads

open Imate.Cache Imate.CacheThreads Imate.Spec

variable {M : Type}

/-! ### One thread alone -/

/-- The steps of one call in a row. -/
def solo (e : Env) (gpu : Bool) (k : Nat) : Nat → Obj M → Pc M → Obj M × Option (Except PyExc (Handle M))
  | 0, o, _ => (o, none)
  | n + 1, o, pc =>
    match stepPc e gpu k o pc with
    | (o, .done r) => (o, some r)
    | (o, pc) => solo e gpu k n o pc

theorem run_cons (s : State M) (ev : Event) (events : List Event) : s.run (ev :: events) = (s.next ev).run events := rfl

theorem run_idle {s : State M} {t : Nat} (h : s.running t = none) (e : Env) (n : Nat) :
    s.run (List.replicate n (.step t e)) = s := by
  induction n with
  | zero => rfl
  | succ n ih =>
    have : s.next (.step t e) = s := by unfold State.next; simp [h]
    show State.run (s.next (.step t e)) (List.replicate n (.step t e)) = s
    rw [this, ih]

theorem run_solo (e : Env) (gpu : Bool) (k : Nat) (n : Nat) : ∀ (s : State M) (t : Nat) (pc : Pc M),
    s.running t = some ⟨gpu, k, pc⟩ → ∀ o' r, solo e gpu k n s.obj pc = (o', some r) →
    (s.run (List.replicate n (.step t e))).obj = o' ∧
      (s.run (List.replicate n (.step t e))).log = ⟨t, gpu, k, r⟩ :: s.log := by
  induction n with
  | zero => intro s t pc _ o' r h; simp [solo] at h
  | succ n ih =>
    intro s t pc hs o' r h
    show (State.run (s.next (.step t e)) (List.replicate n (.step t e))).obj = _ ∧
      (State.run (s.next (.step t e)) (List.replicate n (.step t e))).log = _
    rw [solo] at h
    have hn : s.next (.step t e) = match stepPc e gpu k s.obj pc with
      | (o, .done r) => ⟨o, Function.update s.running t none, ⟨t, gpu, k, r⟩ :: s.log⟩
      | (o, pc) => ⟨o, Function.update s.running t (some ⟨gpu, k, pc⟩), s.log⟩ := by
      unfold State.next; simp only [hs]; rfl
    rcases hst : stepPc e gpu k s.obj pc with ⟨o, pc'⟩
    rw [hst] at h hn
    rw [hn]
    cases pc' with
    | done r' =>
      simp only [Prod.mk.injEq, Option.some.injEq] at h ⊢
      obtain ⟨rfl, rfl⟩ := h
      rw [run_idle (by simp)]
      exact ⟨rfl, rfl⟩
    | _ => exact ih _ t _ (by simp) o' r h

theorem solo_record (e : Env) (gpu : Bool) (k n : Nat) (o : Obj M) :
    solo e gpu k (n + 6) o .record =
      ((if gpu then select o.gpuAop o.initializedOnGpu { o with numGpuDevices := k }
        else select o.cpuAop o.initializedOnCpu { o with numGpuDevices := k }).2,
      some (if gpu then select o.gpuAop o.initializedOnGpu { o with numGpuDevices := k }
        else select o.cpuAop o.initializedOnCpu { o with numGpuDevices := k }).1) := by
  rcases o with ⟨A, aop, cpu, gp, num, fc, fg⟩
  cases gpu <;> cases cpu <;> cases gp <;> cases fc <;> cases fg <;> rfl

theorem solo_store (e : Env) (k n : Nat) (o : Obj M) (h : Handle M) :
    solo e true k (n + 2) o (.storeGpu h) =
      solo e true k n { o with gpuAop := .set h, initializedOnGpu := true } .record := rfl

theorem solo_store_cpu (e : Env) (k n : Nat) (o : Obj M) (h : Handle M) :
    solo e false k (n + 2) o (.storeCpu h) =
      solo e false k n { o with cpuAop := .set h, initializedOnCpu := true } .record := rfl

theorem solo_build (e : Env) (k n : Nat) (o : Obj M) (hn : 9 ≤ n) :
    solo e true k n o .buildGpu =
      ((match assignGpu e k o with
        | (some x, o) => (.error x, o)
        | (none, o) => select o.gpuAop o.initializedOnGpu { o with numGpuDevices := k } : Except PyExc (Handle M) × Obj M).2,
      some (match assignGpu e k o with
        | (some x, o) => (.error x, o)
        | (none, o) => select o.gpuAop o.initializedOnGpu { o with numGpuDevices := k } :
          Except PyExc (Handle M) × Obj M).1) := by
  obtain ⟨n, rfl⟩ : ∃ m, n = m + 9 := ⟨n - 9, by omega⟩
  unfold assignGpu
  show solo e true k ((n + 6) + 2 + 1) o .buildGpu = _
  rw [solo, stepPc]
  cases newGpu e o.A k with
  | error x => rfl
  | ok h =>
    show solo e true k ((n + 6) + 2) o (.storeGpu h) = _
    rw [solo_store, solo_record]
    rfl

/-- C101: a call that no other thread interrupts is the call of C06. -/
theorem alone_is_sequential (e : Env) (gpu : Bool) (k : Nat) (o : Obj M) :
    (alone e gpu k o).obj = (getLinearOperator e gpu k o).2 ∧
      (alone e gpu k o).log = [⟨0, gpu, k, (getLinearOperator e gpu k o).1⟩] := by
  have hs : ((State.init o).next (.call 0 gpu k)).running 0 = some ⟨gpu, k, start gpu⟩ := by
    simp [State.next, State.init]
  have key : solo e gpu k 16 o (start gpu) = ((getLinearOperator e gpu k o).2, some (getLinearOperator e gpu k o).1) := by
    cases gpu with
    | false =>
      unfold getLinearOperator initializeOn initializeBranch
      rw [start, if_neg (by simp)]
      simp only [Bool.false_eq_true, if_false]
      by_cases hf : o.initializedOnCpu = true
      · have : solo e false k 16 o .checkCpu = solo e false k (9 + 6) o .record := by
          rw [solo, stepPc, if_pos hf]
        rw [this, solo_record]
        simp [hf]
      · have h1 : solo e false k 16 o .checkCpu = solo e false k 15 o .buildCpu := by
          rw [solo, stepPc, if_neg hf]
        rw [h1, solo, stepPc]
        cases hn : newCpu e o.A with
        | error x => simp [hf]
        | ok h =>
          show solo e false k ((6 + 6) + 2) o (.storeCpu h) = _
          rw [solo_store_cpu, solo_record]
          simp [hf]
    | true =>
      unfold getLinearOperator initializeOn initializeBranch
      rw [start, if_pos rfl]
      simp only [if_true]
      by_cases hf : o.initializedOnGpu = true
      · have h1 : solo e true k 16 o .checkGpu = solo e true k 15 o .compare := by
          rw [solo, stepPc, if_pos hf]
        rw [h1]
        by_cases hk : k = o.numGpuDevices
        · have h2 : solo e true k 15 o .compare = solo e true k (8 + 6) o .record := by
            rw [solo, stepPc, if_neg (by simpa using hk)]
          rw [h2, solo_record]
          simp [hf, hk]
        · have h2 : solo e true k 15 o .compare = solo e true k 14 o .properties := by
            rw [solo, stepPc, if_pos hk]
          rw [h2, solo, stepPc]
          rw [if_neg (by simp [hf]), if_pos hk]
          unfold changeGpu
          cases ha : allDevices e o with
          | error x => simp
          | ok all =>
            simp only
            by_cases c1 : k = 0 ∧ o.numGpuDevices = all
            · have h3 : solo e true k 13 o (.firstTest all) = solo e true k (6 + 6) o .record := by
                rw [solo, stepPc, if_pos c1]
              rw [h3, solo_record]
              simp [hf, reallocate, c1]
            · have h3 : solo e true k 13 o (.firstTest all) = solo e true k 12 o (.secondTest all) := by
                rw [solo, stepPc, if_neg c1]
              rw [h3]
              by_cases c2 : k = all ∧ o.numGpuDevices = 0
              · have h4 : solo e true k 12 o (.secondTest all) = solo e true k (5 + 6) o .record := by
                  rw [solo, stepPc, if_pos c2]
                have hr : reallocate k o.numGpuDevices all = false := by
                  unfold reallocate; rw [if_neg c1, if_pos c2]
                rw [h4, solo_record]
                simp [hf, hr]
              · have h4 : solo e true k 12 o (.secondTest all) = solo e true k 11 o .testNone := by
                  rw [solo, stepPc, if_neg c2]
                have hr : reallocate k o.numGpuDevices all = true := by
                  unfold reallocate; rw [if_neg c1, if_neg c2]
                rw [h4]
                cases hg : o.gpuAop with
                | missing => simp [allDevices, hg] at ha
                | none => simp [allDevices, hg] at ha
                | set h =>
                  have h5 : solo e true k 11 o .testNone = solo e true k 9 { o with gpuAop := .missing } .buildGpu := by
                    rw [solo, stepPc, hg]
                    show solo e true k 10 o .delete = _
                    rw [solo, stepPc, hg]
                  rw [h5, solo_build _ _ _ _ (Nat.le_refl _)]
                  simp only [hr, if_true]
                  rcases assignGpu e k { o with gpuAop := .missing } with ⟨_ | x, o'⟩ <;> rfl
      · have h1 : solo e true k 16 o .checkGpu = solo e true k 15 o .buildGpu := by
          rw [solo, stepPc, if_neg hf]
        rw [h1, solo_build _ _ _ _ (by omega)]
        simp only [hf]
        rcases assignGpu e k o with ⟨_ | x, o'⟩ <;> rfl
  have ho : ((State.init o).next (.call 0 gpu k)).obj = o := by simp [State.next, State.init]
  have hl : ((State.init o).next (.call 0 gpu k)).log = [] := by simp [State.next, State.init]
  rw [← ho] at key
  have := run_solo e gpu k 16 _ 0 _ hs _ _ key
  rw [ho, hl] at this
  rw [alone, run_cons]
  exact this

/-! ### Every call ends -/

/-- The number of steps that are left. -/
def rank : Pc M → Nat
  | .checkGpu => 15
  | .compare => 14
  | .properties => 13
  | .firstTest _ => 12
  | .secondTest _ => 11
  | .testNone => 10
  | .delete => 9
  | .checkCpu => 9
  | .buildGpu => 8
  | .buildCpu => 8
  | .storeGpu _ => 7
  | .storeCpu _ => 7
  | .flagGpu => 6
  | .flagCpu => 6
  | .record => 5
  | .selectNone => 4
  | .selectFlag => 3
  | .selectRead => 2
  | .storeAop _ => 1
  | .readAop => 0
  | .done _ => 0

theorem rank_step (e : Env) (gpu : Bool) (k : Nat) (o : Obj M) (pc : Pc M) :
    (∃ r, (stepPc e gpu k o pc).2 = .done r) ∨ rank (stepPc e gpu k o pc).2 < rank pc := by
  cases pc <;> unfold stepPc <;> simp only
  all_goals first
    | (right; simp only [rank]; omega)
    | (left; exact ⟨_, rfl⟩)
    | (split <;> first | (left; exact ⟨_, rfl⟩) | (right; simp [rank]; done) |
        (split <;> first | (left; exact ⟨_, rfl⟩) | (right; simp [rank])))

/-- What a step of a thread does to its own call. -/
theorem next_step {s : State M} {t : Nat} {c : Running M} (h : s.running t = some c) (e : Env) :
    (∃ r, (stepPc e c.gpu c.k s.obj c.pc).2 = .done r ∧
      s.next (.step t e) = ⟨(stepPc e c.gpu c.k s.obj c.pc).1, Function.update s.running t none,
        ⟨t, c.gpu, c.k, r⟩ :: s.log⟩) ∨
    ((∀ r, (stepPc e c.gpu c.k s.obj c.pc).2 ≠ .done r) ∧
      s.next (.step t e) = ⟨(stepPc e c.gpu c.k s.obj c.pc).1,
        Function.update s.running t (some ⟨c.gpu, c.k, (stepPc e c.gpu c.k s.obj c.pc).2⟩), s.log⟩) := by
  unfold State.next
  simp only [h]
  rcases stepPc e c.gpu c.k s.obj c.pc with ⟨o, pc⟩
  cases pc <;> simp

/-- The log only grows. -/
theorem log_next (s : State M) (ev : Event) : ∀ x ∈ s.log, x ∈ (s.next ev).log := by
  intro x hx
  unfold State.next
  cases ev with
  | call t gpu k => cases h : s.running t <;> simpa [h] using hx
  | step t e =>
    cases h : s.running t with
    | none => simpa [h] using hx
    | some c =>
      rcases next_step h e with ⟨r, -, e1⟩ | ⟨-, e1⟩
      · unfold State.next at e1
        rw [e1]; exact List.mem_cons_of_mem _ hx
      · unfold State.next at e1
        rw [e1]; exact hx

theorem log_run (events : List Event) : ∀ s : State M, ∀ x ∈ s.log, x ∈ (s.run events).log := by
  induction events with
  | nil => exact fun _ _ h => h
  | cons ev rest ih => exact fun s x hx => ih _ _ (log_next s ev x hx)

/-- C101: no call waits for another: once its thread has taken 16 steps it has ended, whatever the others do. -/
theorem calls_end (s : State M) (t : Nat) (c : Running M) (h : s.running t = some c) (events : List Event)
    (hn : 16 ≤ stepsOf t events) : ∃ r, ⟨t, c.gpu, c.k, r⟩ ∈ (s.run events).log := by
  have key : ∀ (events : List Event) (s : State M) (c : Running M), s.running t = some c →
      rank c.pc < stepsOf t events → ∃ r, ⟨t, c.gpu, c.k, r⟩ ∈ (s.run events).log := by
    intro events
    induction events with
    | nil => intro s c _ hr; simp [stepsOf] at hr
    | cons ev rest ih =>
      intro s c hc hr
      show ∃ r, _ ∈ (State.run (s.next ev) rest).log
      cases ev with
      | call t' gpu k =>
        refine ih _ c ?_ (by simpa [stepsOf] using hr)
        by_cases ht : t' = t
        · subst ht; simp [State.next, hc]
        · cases hs : s.running t' with
          | some _ => simpa [State.next, hs] using hc
          | none =>
            have : s.next (.call t' gpu k) =
                { s with running := Function.update s.running t' (some ⟨gpu, k, start gpu⟩) } := by
              unfold State.next; simp only [hs]
            rw [this]
            simpa [Function.update_of_ne (Ne.symm ht)] using hc
      | step t' e =>
        by_cases ht : t' = t
        · subst ht
          have hr' : rank c.pc < stepsOf t' rest + 1 := by simpa [stepsOf] using hr
          rcases next_step hc e with ⟨r, -, e1⟩ | ⟨hnd, e1⟩
          · exact ⟨r, log_run _ _ _ (by rw [e1]; simp)⟩
          · refine ih _ ⟨c.gpu, c.k, (stepPc e c.gpu c.k s.obj c.pc).2⟩ (by rw [e1]; simp) ?_
            rcases rank_step e c.gpu c.k s.obj c.pc with ⟨r, hd⟩ | hlt
            · exact absurd hd (hnd r)
            · simp only; omega
        · have hr' : rank c.pc < stepsOf t rest := by simpa [stepsOf, ht] using hr
          refine ih _ c ?_ hr'
          cases hs : s.running t' with
          | none => simpa [State.next, hs] using hc
          | some c' =>
            rcases next_step hs e with ⟨r, -, e1⟩ | ⟨hnd, e1⟩
            · rw [e1]; simpa [Function.update_of_ne (Ne.symm ht)] using hc
            · rw [e1]; simpa [Function.update_of_ne (Ne.symm ht)] using hc
  refine key events s c h (Nat.lt_of_lt_of_le ?_ hn)
  cases c.pc <;> simp [rank]

/-! ### Safety -/

/-- What holds of the object between any two steps: `Q` holds of the operators it holds. -/
structure ObjOk (Q : Handle M → Prop) (A : M) (o : Obj M) : Prop where
  matrix : o.A = A
  cpu : ∀ h, o.cpuAop = .set h → h = ⟨A, false, 0⟩
  gpu : ∀ h, o.gpuAop = .set h → Q h
  aop : ∀ h, o.aop = .set h → Q h
  flag : o.initializedOnCpu = true → o.cpuAop = .set ⟨A, false, 0⟩

/-- What holds of a call that has not ended; `G`: calls for the GPU happen, `F`: exceptions of constructions. -/
def PcOk (Q : Handle M → Prop) (G : Prop) (F : PyExc → Prop) (A : M) (o : Obj M) (gpu : Bool) : Pc M → Prop
  | .checkGpu | .buildGpu | .flagGpu | .compare | .properties | .firstTest _ | .secondTest _ | .testNone | .delete =>
    gpu = true ∧ G
  | .storeGpu h => gpu = true ∧ G ∧ Q h
  | .checkCpu | .buildCpu => gpu = false
  | .storeCpu h => gpu = false ∧ h = ⟨A, false, 0⟩
  | .flagCpu => gpu = false ∧ o.cpuAop = .set ⟨A, false, 0⟩
  | .record | .selectNone | .selectFlag | .selectRead => gpu = false → o.initializedOnCpu = true
  | .storeAop h => Q h
  | .readAop => ∃ h, o.aop = .set h
  | .done r => (∀ h, r = .ok h → Q h) ∧ (gpu = false → ∀ x, r = .error x → F x)

/-- What other threads do not undo. -/
structure Mono (A : M) (o o' : Obj M) : Prop where
  cpu : o.cpuAop = .set ⟨A, false, 0⟩ → o'.cpuAop = .set ⟨A, false, 0⟩
  flag : o.initializedOnCpu = true → o'.initializedOnCpu = true
  aop : (∃ h, o.aop = .set h) → ∃ h, o'.aop = .set h

theorem Mono.refl (A : M) (o : Obj M) : Mono A o o := ⟨id, id, id⟩

theorem PcOk.mono {Q : Handle M → Prop} {G : Prop} {F F' : PyExc → Prop} {A : M} {o o' : Obj M} {gpu : Bool} {pc : Pc M}
    (h : PcOk Q G F A o gpu pc) (hm : Mono A o o') (hF : ∀ x, F x → F' x) : PcOk Q G F' A o' gpu pc := by
  cases pc with
  | flagCpu => exact ⟨h.1, hm.cpu h.2⟩
  | record => exact fun hg => hm.flag (h hg)
  | selectNone => exact fun hg => hm.flag (h hg)
  | selectFlag => exact fun hg => hm.flag (h hg)
  | selectRead => exact fun hg => hm.flag (h hg)
  | readAop => exact hm.aop h
  | done r => exact ⟨h.1, fun hg x hx => hF x (h.2 hg x hx)⟩
  | _ => exact h

/-- One step keeps all of it. -/
theorem step_ok {Q : Handle M → Prop} {G : Prop} {F : PyExc → Prop} {A : M} {o : Obj M} {gpu : Bool} {k : Nat} {e : Env}
    (hQ : Q ⟨A, false, 0⟩) (hG : G → ∀ h : Handle M, h.matrix = A → Q h) (hF : ∀ x, e.failure = some x → F x)
    {pc : Pc M} (I : ObjOk Q A o) (P : PcOk Q G F A o gpu pc) :
    ObjOk Q A (stepPc e gpu k o pc).1 ∧ PcOk Q G F A (stepPc e gpu k o pc).1 gpu (stepPc e gpu k o pc).2 ∧
      Mono A o (stepPc e gpu k o pc).1 := by
  have bad : ∀ {x : PyExc}, gpu = true → PcOk Q G F A o gpu (.done (.error x)) :=
    fun hg => ⟨fun h hh => (by cases hh), fun hf => (by rw [hg] at hf; cases hf)⟩
  cases pc with
  | checkGpu =>
    refine ⟨I, ?_, Mono.refl A o⟩
    show PcOk Q G F A o gpu (if o.initializedOnGpu then .compare else .buildGpu)
    split_ifs <;> exact P
  | buildGpu =>
    unfold stepPc
    cases hn : newGpu e o.A k with
    | error x => exact ⟨I, bad P.1, Mono.refl A o⟩
    | ok h => exact ⟨I, ⟨P.1, P.2, hG P.2 h (by rw [(newGpu_ok hn).1]; exact I.matrix)⟩, Mono.refl A o⟩
  | storeGpu h =>
    refine ⟨⟨I.matrix, I.cpu, ?_, I.aop, I.flag⟩, ⟨P.1, P.2.1⟩, ⟨id, id, id⟩⟩
    intro h' hh
    injection hh with hh
    exact hh ▸ P.2.2
  | flagGpu =>
    exact ⟨⟨I.matrix, I.cpu, I.gpu, I.aop, I.flag⟩, fun hg => (by rw [P.1] at hg; cases hg), ⟨id, id, id⟩⟩
  | compare =>
    refine ⟨I, ?_, Mono.refl A o⟩
    show PcOk Q G F A o gpu (if k ≠ o.numGpuDevices then .properties else .record)
    split_ifs
    · exact P
    · intro hg; rw [P.1] at hg; cases hg
  | properties =>
    unfold stepPc
    cases hn : allDevices e o with
    | error x => exact ⟨I, bad P.1, Mono.refl A o⟩
    | ok all => exact ⟨I, P, Mono.refl A o⟩
  | firstTest all =>
    refine ⟨I, ?_, Mono.refl A o⟩
    show PcOk Q G F A o gpu (if k = 0 ∧ o.numGpuDevices = all then .record else .secondTest all)
    split_ifs
    · intro hg; rw [P.1] at hg; cases hg
    · exact P
  | secondTest all =>
    refine ⟨I, ?_, Mono.refl A o⟩
    show PcOk Q G F A o gpu (if k = all ∧ o.numGpuDevices = 0 then .record else .testNone)
    split_ifs
    · intro hg; rw [P.1] at hg; cases hg
    · exact P
  | testNone =>
    unfold stepPc
    cases hn : o.gpuAop with
    | missing => exact ⟨I, bad P.1, Mono.refl A o⟩
    | none => exact ⟨I, P, Mono.refl A o⟩
    | set h => exact ⟨I, P, Mono.refl A o⟩
  | delete =>
    have key : ObjOk Q A { o with gpuAop := .missing } :=
      ⟨I.matrix, I.cpu, fun h hh => (by cases hh), I.aop, I.flag⟩
    unfold stepPc
    cases hn : o.gpuAop with
    | missing => exact ⟨I, bad P.1, Mono.refl A o⟩
    | none => exact ⟨key, P, ⟨id, id, id⟩⟩
    | set h => exact ⟨key, P, ⟨id, id, id⟩⟩
  | checkCpu =>
    refine ⟨I, ?_, Mono.refl A o⟩
    show PcOk Q G F A o gpu (if o.initializedOnCpu then .record else .buildCpu)
    split_ifs with hf
    · exact fun _ => hf
    · exact P
  | buildCpu =>
    unfold stepPc newCpu
    cases hn : e.failure with
    | some x =>
      refine ⟨I, ⟨fun h hh => (by cases hh), fun _ y hy => ?_⟩, Mono.refl A o⟩
      injection hy with hy
      exact hy ▸ hF x hn
    | none => exact ⟨I, ⟨P, by rw [I.matrix]⟩, Mono.refl A o⟩
  | storeCpu h =>
    obtain ⟨hg, rfl⟩ := P
    refine ⟨⟨I.matrix, ?_, I.gpu, I.aop, fun _ => rfl⟩, ⟨hg, rfl⟩, ⟨fun _ => rfl, id, id⟩⟩
    intro h' hh
    injection hh with hh
    exact hh.symm
  | flagCpu => exact ⟨⟨I.matrix, I.cpu, I.gpu, I.aop, fun _ => P.2⟩, fun _ => rfl, ⟨id, fun _ => rfl, id⟩⟩
  | record => exact ⟨⟨I.matrix, I.cpu, I.gpu, I.aop, I.flag⟩, P, ⟨id, id, id⟩⟩
  | selectNone =>
    cases gpu with
    | true =>
      unfold stepPc
      simp only [if_true]
      cases hn : o.gpuAop with
      | missing => exact ⟨I, bad rfl, Mono.refl A o⟩
      | none => exact ⟨I, bad rfl, Mono.refl A o⟩
      | set h => exact ⟨I, P, Mono.refl A o⟩
    | false =>
      unfold stepPc
      simp only [Bool.false_eq_true, if_false, I.flag (P rfl)]
      exact ⟨I, P, Mono.refl A o⟩
  | selectFlag =>
    cases gpu with
    | true =>
      refine ⟨I, ?_, Mono.refl A o⟩
      show PcOk Q G F A o true (if o.initializedOnGpu then .selectRead else .done (.error .runtimeError))
      split_ifs
      · exact P
      · exact bad rfl
    | false =>
      refine ⟨I, ?_, Mono.refl A o⟩
      show PcOk Q G F A o false (if o.initializedOnCpu then .selectRead else .done (.error .runtimeError))
      rw [if_pos (P rfl)]
      exact P
  | selectRead =>
    cases gpu with
    | true =>
      unfold stepPc
      simp only [if_true]
      cases hn : o.gpuAop with
      | missing => exact ⟨I, bad rfl, Mono.refl A o⟩
      | none => exact ⟨I, bad rfl, Mono.refl A o⟩
      | set h => exact ⟨I, I.gpu h hn, Mono.refl A o⟩
    | false =>
      unfold stepPc
      simp only [Bool.false_eq_true, if_false, I.flag (P rfl)]
      exact ⟨I, hQ, Mono.refl A o⟩
  | storeAop h =>
    refine ⟨⟨I.matrix, I.cpu, I.gpu, ?_, I.flag⟩, ⟨h, rfl⟩, ⟨id, id, fun _ => ⟨h, rfl⟩⟩⟩
    intro h' hh
    injection hh with hh
    exact hh ▸ P
  | readAop =>
    obtain ⟨h, hh⟩ := P
    unfold stepPc
    simp only [hh]
    refine ⟨I, ⟨fun h' h1 => ?_, fun _ x hx => by cases hx⟩, Mono.refl A o⟩
    injection h1 with h1
    exact h1 ▸ I.aop h hh
  | done r => exact ⟨I, P, Mono.refl A o⟩

/-- The invariant of a history. -/
structure Inv (Q : Handle M → Prop) (G : Prop) (F : Nat → PyExc → Prop) (A : M) (s : State M) : Prop where
  obj : ObjOk Q A s.obj
  running : ∀ t c, s.running t = some c → PcOk Q G (F t) A s.obj c.gpu c.pc
  calls : ∀ t c, s.running t = some c → c.gpu = true → G
  log : ∀ x ∈ s.log, (x.gpu = true → G) ∧ (∀ h, x.result = .ok h → Q h) ∧ (x.gpu = false → ∀ y, x.result = .error y → F x.thread y)

theorem Inv.next {Q : Handle M → Prop} {G : Prop} {F : Nat → PyExc → Prop} {A : M} {s : State M} (I : Inv Q G F A s)
    (hQ : Q ⟨A, false, 0⟩) (hG : G → ∀ h : Handle M, h.matrix = A → Q h) {ev : Event}
    (hc : ∀ t gpu k, ev = .call t gpu k → gpu = true → G)
    (hF : ∀ t e x, ev = .step t e → e.failure = some x → F t x) : Inv Q G F A (s.next ev) := by
  -- what a new table of running calls satisfies
  have upd : ∀ {o' : Obj M} {t : Nat} {v : Option (Running M)}, Mono A s.obj o' →
      (∀ c, v = some c → PcOk Q G (F t) A o' c.gpu c.pc ∧ (c.gpu = true → G)) →
      ∀ t' c', Function.update s.running t v t' = some c' →
        PcOk Q G (F t') A o' c'.gpu c'.pc ∧ (c'.gpu = true → G) := by
    intro o' t v hm hv t' c' h'
    by_cases ht : t' = t
    · subst ht
      rw [Function.update_self] at h'
      exact hv c' h'
    · rw [Function.update_of_ne ht] at h'
      exact ⟨(I.running t' c' h').mono hm fun _ h => h, I.calls t' c' h'⟩
  cases ev with
  | call t gpu k =>
    cases hs : s.running t with
    | some c => simpa [State.next, hs] using I
    | none =>
      have : s.next (.call t gpu k) = { s with running := Function.update s.running t (some ⟨gpu, k, start gpu⟩) } := by
        unfold State.next; simp only [hs]
      rw [this]
      have key := upd (t := t) (v := some ⟨gpu, k, start gpu⟩) (Mono.refl A s.obj) (by
        intro c h
        injection h with h
        subst h
        refine ⟨?_, hc t gpu k rfl⟩
        cases gpu with
        | true => exact ⟨rfl, hc t true k rfl rfl⟩
        | false => exact rfl)
      exact ⟨I.obj, fun t' c' h' => (key t' c' h').1, fun t' c' h' => (key t' c' h').2, I.log⟩
  | step t e =>
    cases hs : s.running t with
    | none => simpa [State.next, hs] using I
    | some c =>
      obtain ⟨h1, h2, h3⟩ := step_ok (k := c.k) hQ hG (hF t e · rfl) I.obj (I.running t c hs)
      rcases next_step hs e with ⟨r, hd, e1⟩ | ⟨-, e1⟩
      · rw [e1]
        rw [hd] at h2
        have key := upd (t := t) (v := none) h3 (fun c h => by cases h)
        refine ⟨h1, fun t' c' h' => (key t' c' h').1, fun t' c' h' => (key t' c' h').2, ?_⟩
        intro x hx
        rcases List.mem_cons.1 hx with rfl | hx
        · exact ⟨I.calls t c hs, h2⟩
        · exact I.log x hx
      · rw [e1]
        have key := upd (t := t) (v := some { c with pc := (stepPc e c.gpu c.k s.obj c.pc).2 }) h3 (by
          intro c' h
          injection h with h
          subst h
          exact ⟨h2, I.calls t c hs⟩)
        exact ⟨h1, fun t' c' h' => (key t' c' h').1, fun t' c' h' => (key t' c' h').2, I.log⟩

theorem Inv.run {Q : Handle M → Prop} {G : Prop} {F : Nat → PyExc → Prop} {A : M} (hQ : Q ⟨A, false, 0⟩)
    (hG : G → ∀ h : Handle M, h.matrix = A → Q h) (events : List Event)
    (hc : ∀ t gpu k, Event.call t gpu k ∈ events → gpu = true → G)
    (hF : ∀ t e x, Event.step t e ∈ events → e.failure = some x → F t x) :
    ∀ {s : State M}, Inv Q G F A s → Inv Q G F A (s.run events) := by
  induction events with
  | nil => exact fun h => h
  | cons ev rest ih =>
    intro s I
    rw [run_cons]
    refine ih (fun t g k h => hc t g k (by simp [h])) (fun t e x h => hF t e x (by simp [h])) (I.next hQ hG ?_ ?_)
    · exact fun t g k h => hc t g k (by simp [h])
    · exact fun t e x h => hF t e x (by simp [h])

theorem Inv.new (Q : Handle M → Prop) (G : Prop) (F : Nat → PyExc → Prop) (A : M) :
    Inv Q G F A (State.init (Obj.new A)) :=
  ⟨⟨rfl, fun h hh => (by cases hh), fun h hh => (by cases hh), fun h hh => (by cases hh), fun h => (by cases h)⟩,
    fun t c h => (by cases h), fun t c h => (by cases h), fun x hx => (by cases hx)⟩

/-- C101: in every interleaving of calls for the CPU, every call that ends returns the operator of the matrix on the CPU, or
raises the exception of its own construction. -/
theorem cpu_calls_correct (A : M) {events : List Event} (hc : OnlyCpu events) {x : Ended M}
    (hx : x ∈ ((State.init (Obj.new A)).run events).log) :
    x.result = .ok ⟨A, false, 0⟩ ∨ ∃ y, x.result = .error y ∧ RaisedBy events x.thread y := by
  have I := Inv.run (Q := fun h => h = ⟨A, false, 0⟩) (G := False) (F := RaisedBy events) (A := A) rfl (fun h => h.elim) events
    (fun t g k h hg => by rw [hc t g k h] at hg; cases hg) (fun t e x h hf => ⟨e, h, hf⟩) (Inv.new _ _ _ A)
  obtain ⟨h0, h1, h2⟩ := I.log x hx
  have hg : x.gpu = false := by
    cases hb : x.gpu with
    | true => exact (h0 hb).elim
    | false => rfl
  cases hr : x.result with
  | ok h => exact Or.inl (by rw [h1 h hr])
  | error y => exact Or.inr ⟨y, rfl, h2 hg y hr⟩

/-- C101: in every interleaving, calls for the CPU and for the GPU mixed, every operator returned is one of the object's
matrix, and a call for the CPU raises nothing but the exception of its own construction.  Partial: that the operator is on
the side the call asked for fails, see `cpu_call_gets_gpu_operator`. -/
theorem mixed_calls_partial (A : M) (events : List Event) {x : Ended M}
    (hx : x ∈ ((State.init (Obj.new A)).run events).log) :
    (∀ h, x.result = .ok h → h.matrix = A) ∧
      (x.gpu = false → ∀ y, x.result = .error y → RaisedBy events x.thread y) :=
  ((Inv.run (Q := fun h => h.matrix = A) (G := True) (F := RaisedBy events) (A := A) rfl (fun _ _ h => h) events
    (fun _ _ _ _ _ => trivial) (fun _ e _ h hf => ⟨e, h, hf⟩) (Inv.new _ _ _ A)).log x hx).2

/-- Non-vacuity of `cpu_calls_correct`: two threads ask for the CPU, step by step in turn, and both build the operator; a third
cannot build it. -/
example : ∃ events, OnlyCpu events ∧ ((State.init (Obj.new (7 : Nat))).run events).log =
    [⟨1, false, 0, .ok ⟨7, false, 0⟩⟩, ⟨0, false, 0, .ok ⟨7, false, 0⟩⟩, ⟨2, false, 0, .error .typeError⟩] := by
  refine ⟨[.call 0 false 0, .call 1 false 0, .call 2 false 0, .step 2 ⟨0, some .typeError⟩, .step 2 ⟨0, some .typeError⟩] ++
    (List.replicate 10 [.step 0 ⟨0, none⟩, .step 1 ⟨0, none⟩]).flatten, ?_, ?_⟩
  · intro t g k h
    simp [List.replicate] at h
    tauto
  · simp [State.run, State.next, State.init, Obj.new, stepPc, start, newCpu, Function.update, List.replicate]

/-! ### Calls for the GPU -/

/-- What holds of the object once an operator on `k` devices exists and only such operators are asked for. -/
structure Warm (h : Handle M) (k : Nat) (o : Obj M) : Prop where
  flag : o.initializedOnGpu = true
  gpu : o.gpuAop = .set h
  devices : o.numGpuDevices = k

/-- Where a call for `k` devices then stands. -/
def WarmPc (h : Handle M) (o : Obj M) : Pc M → Prop
  | .checkGpu | .compare | .record | .selectNone | .selectFlag | .selectRead => True
  | .storeAop h' => h' = h
  | .readAop => o.aop = .set h
  | .done r => r = .ok h
  | _ => False

theorem warm_of_call {e : Env} {k : Nat} {o : Obj M} {h : Handle M} (hc : (getLinearOperator e true k o).1 = .ok h) :
    Warm h k (getLinearOperator e true k o).2 := by
  unfold getLinearOperator initializeOn at hc ⊢
  rcases hi : initializeBranch e true k o with ⟨x | x, o1⟩
  · rw [hi] at hc
    simp only [if_true] at hc ⊢
    unfold select at hc ⊢
    cases hg : o1.gpuAop with
    | missing => simp [hg] at hc
    | none => simp [hg] at hc
    | set h' =>
      simp only [hg] at hc ⊢
      by_cases hf : o1.initializedOnGpu = true
      · rw [if_pos hf] at hc ⊢
        injection hc with hc
        exact ⟨hf, congrArg _ hc, rfl⟩
      · rw [if_neg hf] at hc
        cases hc
  · rw [hi] at hc
    cases hc

theorem warm_step {e : Env} {k : Nat} {o : Obj M} {h : Handle M} {pc : Pc M} (W : Warm h k o) (P : WarmPc h o pc) :
    Warm h k (stepPc e true k o pc).1 ∧ WarmPc h (stepPc e true k o pc).1 (stepPc e true k o pc).2 ∧
      (o.aop = .set h → (stepPc e true k o pc).1.aop = .set h) := by
  cases pc with
  | checkGpu => exact ⟨W, by simp [stepPc, W.flag, WarmPc], id⟩
  | compare => exact ⟨W, by simp [stepPc, W.devices, WarmPc], id⟩
  | record => exact ⟨⟨W.flag, W.gpu, rfl⟩, trivial, id⟩
  | selectNone => simpa [stepPc, W.gpu, WarmPc] using W
  | selectFlag => simpa [stepPc, W.flag, WarmPc] using W
  | selectRead => simpa [stepPc, W.gpu, WarmPc] using W
  | storeAop h' =>
    have : h' = h := P
    subst this
    exact ⟨⟨W.flag, W.gpu, W.devices⟩, rfl, fun _ => rfl⟩
  | readAop =>
    have : o.aop = .set h := P
    exact ⟨by simpa [stepPc, this] using W, by simp [stepPc, this, WarmPc], by simp [stepPc, this]⟩
  | done r => exact ⟨W, P, id⟩
  | _ => exact P.elim

/-- C101: once a call for `k` devices of the GPU has returned an operator and no other call is under way, every call for `k`
devices returns the same operator, whatever the interleaving. -/
theorem warm_gpu_calls {e : Env} {k : Nat} {o : Obj M} {h : Handle M} (hc : (getLinearOperator e true k o).1 = .ok h)
    {events : List Event} (hk : OnlyGpu k events) {x : Ended M}
    (hx : x ∈ ((State.init (getLinearOperator e true k o).2).run events).log) : x.result = .ok h := by
  have key : ∀ (events : List Event) (s : State M), OnlyGpu k events → Warm h k s.obj →
      (∀ t c, s.running t = some c → c.gpu = true ∧ c.k = k ∧ WarmPc h s.obj c.pc) →
      (∀ x ∈ s.log, x.result = .ok h) → ∀ x ∈ (s.run events).log, x.result = .ok h := by
    intro events
    induction events with
    | nil => exact fun s _ _ _ h => h
    | cons ev rest ih =>
      intro s hk W hr hl
      have hk' : OnlyGpu k rest := fun t g k' hm => hk t g k' (by simp [hm])
      rw [run_cons]
      have upd : ∀ {o' : Obj M} {t : Nat} {v : Option (Running M)}, (s.obj.aop = .set h → o'.aop = .set h) →
          (∀ c, v = some c → c.gpu = true ∧ c.k = k ∧ WarmPc h o' c.pc) →
          ∀ t' c', Function.update s.running t v t' = some c' → c'.gpu = true ∧ c'.k = k ∧ WarmPc h o' c'.pc := by
        intro o' t v hm hv t' c' h'
        by_cases ht : t' = t
        · subst ht
          rw [Function.update_self] at h'
          exact hv c' h'
        · rw [Function.update_of_ne ht] at h'
          obtain ⟨h1, h2, h3⟩ := hr t' c' h'
          refine ⟨h1, h2, ?_⟩
          cases hp : c'.pc <;> rw [hp] at h3 <;> first | exact hm h3 | exact h3
      cases ev with
      | call t gpu k' =>
        cases hs : s.running t with
        | some c =>
          have : s.next (.call t gpu k') = s := by simp [State.next, hs]
          rw [this]
          exact ih s hk' W hr hl
        | none =>
          have : s.next (.call t gpu k') =
              { s with running := Function.update s.running t (some ⟨gpu, k', start gpu⟩) } := by
            unfold State.next; simp only [hs]
          rw [this]
          obtain ⟨rfl, rfl⟩ := hk t gpu k' (by simp)
          refine ih _ hk' W (upd id ?_) hl
          intro c hc
          injection hc with hc
          subst hc
          exact ⟨rfl, rfl, trivial⟩
      | step t e =>
        cases hs : s.running t with
        | none =>
          have : s.next (.step t e) = s := by simp [State.next, hs]
          rw [this]
          exact ih s hk' W hr hl
        | some c =>
          obtain ⟨h1, h2, h3⟩ := hr t c hs
          have hst := warm_step (e := e) W h3
          rcases next_step hs e with ⟨r, hd, e1⟩ | ⟨-, e1⟩
          · rw [e1]
            rw [h1, h2] at hd ⊢
            rw [hd] at hst
            refine ih _ hk' hst.1 (upd hst.2.2 fun c h => by cases h) ?_
            intro x hx
            rcases List.mem_cons.1 hx with rfl | hx
            · exact hst.2.1
            · exact hl x hx
          · rw [e1]
            rw [h1, h2]
            refine ih _ hk' hst.1 (upd hst.2.2 ?_) hl
            intro c' hc
            injection hc with hc
            subst hc
            exact ⟨rfl, rfl, hst.2.1⟩
  exact key events _ hk (warm_of_call hc) (fun t c h => by cases h) (fun x hx => by cases hx) x hx

/-- Non-vacuity of `warm_gpu_calls`: two threads, step by step in turn, after a call for two devices of three. -/
example : (getLinearOperator ⟨3, none⟩ true 2 (Obj.new (7 : Nat))).1 = .ok ⟨7, true, 2⟩ ∧
    ∃ events, OnlyGpu 2 events ∧
      ((State.init (getLinearOperator ⟨3, none⟩ true 2 (Obj.new (7 : Nat))).2).run events).log =
        [⟨1, true, 2, .ok ⟨7, true, 2⟩⟩, ⟨0, true, 2, .ok ⟨7, true, 2⟩⟩] := by
  refine ⟨rfl, [.call 0 true 2, .call 1 true 2] ++
    (List.replicate 8 [.step 0 ⟨3, none⟩, .step 1 ⟨3, none⟩]).flatten, ?_, ?_⟩
  · intro t g k h
    simp [List.replicate] at h
    tauto
  · simp [State.run, State.next, State.init, Obj.new, stepPc, start, newGpu, Function.update, List.replicate,
      getLinearOperator, initializeOn, initializeBranch, assignGpu, select]

/-! ### What fails -/

/-- Several steps of a thread. -/
def steps (t : Nat) (n : Nat) (e : Env) : List Event := List.replicate n (.step t e)

/-- C101 fails: a call for the CPU returns an operator on the GPU.  Thread 0 asks for the CPU; thread 1 asks for the GPU
between `self.Aop = self.cpu_Aop` and `return self.Aop` of thread 0. -/
theorem cpu_call_gets_gpu_operator (A : M) :
    ∃ events, (∃ x ∈ ((State.init (Obj.new A)).run events).log,
      x.gpu = false ∧ x.thread = 0 ∧ x.result = .ok ⟨A, true, 1⟩) ∧
      (∃ t, Event.call t true 1 ∈ events) ∧ ∀ t e, Event.step t e ∈ events → e = ⟨1, none⟩ := by
  refine ⟨.call 0 false 0 :: .call 1 true 1 :: (steps 0 9 ⟨1, none⟩ ++ steps 1 10 ⟨1, none⟩ ++ steps 0 1 ⟨1, none⟩),
    ⟨⟨0, false, 0, .ok ⟨A, true, 1⟩⟩, by simp [steps, State.run, State.next, State.init, Obj.new, stepPc,
      start, newCpu, newGpu, Function.update], rfl, rfl, rfl⟩, ⟨1, by simp⟩, ?_⟩
  intro t e h
  simp [steps] at h
  rcases h with h | h | h <;> exact h.2

/-- C101 fails: two threads that make the same first call for the GPU, each of which succeeds alone, and one of them raises
`AttributeError`.  Thread 0 has set `initialized_on_gpu` but not yet `num_gpu_devices`; thread 1 finds another number of
devices than the one it asks for and deletes the operator of thread 0. -/
theorem same_gpu_call_fails (A : M) :
    (getLinearOperator ⟨2, none⟩ true 1 (Obj.new A)).1 = .ok ⟨A, true, 1⟩ ∧
    ∃ events, OnlyGpu 1 events ∧ (∀ t e, Event.step t e ∈ events → e = ⟨2, none⟩) ∧
      ∃ x ∈ ((State.init (Obj.new A)).run events).log, x.result = .error .attributeError := by
  refine ⟨rfl, .call 0 true 1 :: .call 1 true 1 ::
    (steps 0 4 ⟨2, none⟩ ++ steps 1 7 ⟨2, none⟩ ++ steps 0 2 ⟨2, none⟩), ?_, ?_,
    ⟨0, true, 1, .error .attributeError⟩, by simp [steps, State.run, State.next, State.init, Obj.new, stepPc, start,
      newGpu, Function.update, allDevices], rfl⟩
  · intro t g k h
    simp [steps] at h
    rcases h with h | h <;> exact h.2
  · intro t e h
    simp [steps] at h
    rcases h with h | h | h <;> exact h.2

/-- C101 fails: a call for one device returns an operator on two. -/
theorem wrong_number_of_devices (A : M) :
    ∃ events, (∀ t e, Event.step t e ∈ events → e = ⟨2, none⟩) ∧
      ∃ x ∈ ((State.init (Obj.new A)).run events).log, x.gpu = true ∧ x.k = 1 ∧ x.result = .ok ⟨A, true, 2⟩ := by
  refine ⟨.call 0 true 1 :: .call 1 true 2 ::
    (steps 0 9 ⟨2, none⟩ ++ steps 1 16 ⟨2, none⟩ ++ steps 0 1 ⟨2, none⟩), ?_,
    ⟨0, true, 1, .ok ⟨A, true, 2⟩⟩, by simp [steps, State.run, State.next, State.init, Obj.new, stepPc, start,
      newGpu, Function.update, allDevices], rfl, rfl, rfl⟩
  intro t e h
  simp [steps] at h
  rcases h with h | h | h <;> exact h.2

end Imate.Props.CacheThreads
