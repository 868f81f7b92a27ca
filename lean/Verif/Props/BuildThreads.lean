import Verif.Spec.BuildThreads
import Verif.Props.BuildOptions

/-!
# C81: the parallel build
-/

namespace Imate.Props.BuildThreads

open Imate.BuildThreads Imate.Spec.BuildThreads
open Imate.Build (splitext)
open Imate.LocateCuda (Text)

/-! ## Arguments -/

/-- **C81** (arguments).  In every schedule each source is compiled with the arguments for its kind. -/
theorem args_right (extensions : List (List Text)) (schedule : List ℕ) : ∀ c ∈ (run (start extensions) schedule).log,
    c.args = if splitext c.source = ".cu".toList then .nvcc else .notNvcc := by
  suffices h : ∀ s : State, (∀ c ∈ s.log, c.args = if splitext c.source = ".cu".toList then .nvcc else .notNvcc) →
      ∀ c ∈ (run s schedule).log, c.args = if splitext c.source = ".cu".toList then .nvcc else .notNvcc from
    h _ (by simp [start])
  induction schedule with
  | nil => intro s hs; exact hs
  | cons i rest ih =>
    intro s hs
    refine ih (step s i) ?_
    unfold step
    split
    · exact hs
    · split
      · split <;> exact hs
      · intro c hc
        simp only [List.mem_append, List.mem_singleton] at hc
        rcases hc with hc | rfl
        · exact hs c hc
        · rfl
      · exact hs

/-! ## Without CUDA -/

/-- **C81** (no CUDA).  If no extension has a source in CUDA, every schedule compiles every source with the right compiler. -/
theorem no_cuda_right (extensions : List (List Text)) (hno : ∀ e ∈ extensions, ∀ src ∈ e, splitext src ≠ ".cu".toList)
    (schedule : List ℕ) : ∀ c ∈ (run (start extensions) schedule).log, Right c := by
  suffices h : ∀ s : State, s.compilerSo = .default → (∀ i, ∀ src ∈ (s.threads i).todo, splitext src ≠ ".cu".toList) →
      (∀ c ∈ s.log, Right c) → ∀ c ∈ (run s schedule).log, Right c by
    refine h _ rfl ?_ (by simp [start])
    intro i src hs
    simp only [start] at hs
    rw [List.getD_eq_getElem?_getD] at hs
    cases he : extensions[i]? with
    | none => rw [he] at hs; simp at hs
    | some e =>
      rw [he] at hs
      exact hno e (List.mem_of_getElem? he) src hs
  induction schedule with
  | nil => intro s _ _ hs; exact hs
  | cons i rest ih =>
    intro s hso hthr hlog
    have hset : ∀ t : Thread, (∀ src ∈ t.todo, splitext src ≠ ".cu".toList) →
        ∀ j, ∀ src ∈ (setThread s i t j).todo, splitext src ≠ ".cu".toList := by
      intro t ht j src hj
      unfold setThread at hj
      split at hj
      · exact ht _ hj
      · exact hthr _ _ hj
    have hi := hthr i
    show ∀ c ∈ (run (step s i) rest).log, Right c
    unfold step
    split
    · exact ih s hso hthr hlog
    · rename_i src rest' htodo
      rw [htodo] at hi
      split
      · rw [if_neg (hi src (by simp))]
        exact ih _ hso (hset _ hi) hlog
      · refine ih _ hso (hset _ hi) ?_
        intro c hc
        simp only [List.mem_append, List.mem_singleton] at hc
        rcases hc with hc | rfl
        · exact hlog c hc
        · unfold Right
          rw [if_neg (hi src (by simp)), if_neg (hi src (by simp))]
          exact ⟨hso, rfl⟩
      · exact ih _ rfl (hset _ fun x hx => hi x (List.mem_cons_of_mem _ hx)) hlog

/-! ## One call at a time -/

/-- No thread is inside `_compile`, and the compiler is the default one. -/
def Quiet (s : State) : Prop := s.compilerSo = .default ∧ ∀ i, (s.threads i).pc = .enter

/-- A whole call. -/
theorem turn (s : State) (hs : Quiet s) (i : ℕ) {src : Text} {rest : List Text} (ht : (s.threads i).todo = src :: rest) :
    run s [i, i, i] = ⟨.default, setThread s i ⟨rest, .enter⟩, s.log ++ [⟨i, src,
      if splitext src = ".cu".toList then .nvcc else .default,
      if splitext src = ".cu".toList then .nvcc else .notNvcc⟩]⟩ := by
  obtain ⟨hso, hpc⟩ := hs
  have h1 : step s i = ⟨if splitext src = ".cu".toList then .nvcc else .default, setThread s i ⟨src :: rest, .call⟩, s.log⟩ := by
    unfold step
    rw [ht]
    simp only [hpc i]
    split
    · rfl
    · rw [← hso]
  have hself : ∀ (s : State) t, setThread s i t i = t := fun s t => by simp [setThread]
  have htwice : ∀ (s s' : State) t t', s'.threads = setThread s i t → setThread s' i t' = setThread s i t' := by
    intro s s' t t' e
    funext j
    unfold setThread
    split
    · rfl
    · rename_i hj
      rw [e]
      simp [setThread, hj]
  show step (step (step s i) i) i = _
  rw [h1]
  have h2 : step ⟨if splitext src = ".cu".toList then .nvcc else .default, setThread s i ⟨src :: rest, .call⟩, s.log⟩ i =
      ⟨if splitext src = ".cu".toList then .nvcc else .default, setThread s i ⟨src :: rest, .leave⟩, s.log ++ [⟨i, src,
      if splitext src = ".cu".toList then .nvcc else .default,
      if splitext src = ".cu".toList then .nvcc else .notNvcc⟩]⟩ := by
    rw [step]
    simp only [hself]
    rw [htwice s _ ⟨src :: rest, .call⟩ _ rfl]
  rw [h2]
  rw [step]
  simp only [hself]
  rw [htwice s _ ⟨src :: rest, .leave⟩ _ rfl]

theorem turn_none (s : State) (i : ℕ) (ht : (s.threads i).todo = []) : run s [i, i, i] = s := by
  have h : step s i = s := by unfold step; rw [ht]
  show step (step (step s i) i) i = s
  rw [h, h, h]

theorem turn_quiet (s : State) (hs : Quiet s) (i : ℕ) : Quiet (run s [i, i, i]) := by
  cases ht : (s.threads i).todo with
  | nil => rw [turn_none s i ht]; exact hs
  | cons src rest =>
    rw [turn s hs i ht]
    refine ⟨rfl, fun j => ?_⟩
    show (setThread s i _ j).pc = _
    unfold setThread
    split
    · rfl
    · exact hs.2 j

theorem run_append (s : State) (a b : List ℕ) : run s (a ++ b) = run (run s a) b := List.foldl_append

theorem start_quiet (extensions : List (List Text)) : Quiet (start extensions) := ⟨rfl, fun _ => rfl⟩

/-- **C81** (one call at a time).  If no thread moves while another is inside `_compile`, every source is compiled with the
right compiler. -/
theorem serial_right (extensions : List (List Text)) (schedule : List ℕ) (hser : Serial schedule) :
    ∀ c ∈ (run (start extensions) schedule).log, Right c := by
  obtain ⟨turns, rfl⟩ := hser
  suffices h : ∀ s : State, Quiet s → (∀ c ∈ s.log, Right c) →
      ∀ c ∈ (run s (turns.flatMap fun i => [i, i, i])).log, Right c from
    h _ (start_quiet _) (by simp [start])
  induction turns with
  | nil => intro s _ h; exact h
  | cons i rest ih =>
    intro s hs hlog
    rw [List.flatMap_cons, run_append]
    refine ih _ (turn_quiet s hs i) ?_
    cases ht : (s.threads i).todo with
    | nil => rw [turn_none s i ht]; exact hlog
    | cons src rest =>
      rw [turn s hs i ht]
      intro c hc
      simp only [List.mem_append, List.mem_singleton] at hc
      rcases hc with hc | rfl
      · exact hlog c hc
      · unfold Right
        dsimp only
        split <;> exact ⟨rfl, rfl⟩

/-- Turns of one thread compile its first sources. -/
theorem turns_todo (i : ℕ) (pre post : List Text) (s : State) (hs : Quiet s) (ht : (s.threads i).todo = pre ++ post) :
    ∃ s', run s ((List.replicate pre.length i).flatMap fun i => [i, i, i]) = s' ∧ Quiet s' ∧
      (s'.threads i).todo = post ∧ (∀ j, j ≠ i → s'.threads j = s.threads j) ∧
      s'.log.map (fun c => (c.thread, c.source)) = s.log.map (fun c => (c.thread, c.source)) ++ pre.map (fun x => (i, x)) := by
  induction pre generalizing s with
  | nil => exact ⟨s, rfl, hs, ht, fun _ _ => rfl, by simp⟩
  | cons src rest ih =>
    rw [List.length_cons, List.replicate_succ, List.flatMap_cons, run_append]
    rw [List.cons_append] at ht
    have hq := turn_quiet s hs i
    rw [turn s hs i ht] at hq ⊢
    obtain ⟨s', h1, h2, h3, h4, h5⟩ := ih _ hq (by simp [setThread])
    refine ⟨s', h1, h2, h3, fun j hj => ?_, ?_⟩
    · rw [h4 j hj]; simp [setThread, hj]
    · rw [h5]; simp

/-- **C81** (all sources).  A thread that runs alone compiles all sources of its extension, in order. -/
theorem alone_compiles_all (extensions : List (List Text)) (i : ℕ) :
    (run (start extensions) ((List.replicate (extensions.getD i []).length i).flatMap fun i => [i, i, i])).log.map
      (fun c => (c.thread, c.source)) = (extensions.getD i []).map fun x => (i, x) := by
  obtain ⟨s', h1, -, -, -, h5⟩ := turns_todo i (extensions.getD i []) [] (start extensions) (start_quiet _) (by simp [start])
  rw [h1, h5]
  simp [start]

/-! ## The race -/

/-- **C81** (race for the compiler), the negation of the claim for every build with CUDA and more than one extension: if one
extension has a source in CUDA and another has any source, there is a schedule in which that source in CUDA is handed to the
default compiler. -/
theorem compiler_race (extensions : List (List Text)) (i j : ℕ) (hij : i ≠ j) (src : Text)
    (hsrc : src ∈ extensions.getD i []) (hcu : splitext src = ".cu".toList) (hj : extensions.getD j [] ≠ []) :
    ∃ schedule, ∃ c ∈ (run (start extensions) schedule).log, c.source = src ∧ c.tool = .default ∧ ¬ Right c := by
  obtain ⟨pre, post, e⟩ := List.append_of_mem hsrc
  obtain ⟨s, h1, hq, h3, h4, -⟩ := turns_todo i pre (src :: post) (start extensions) (start_quiet _) (by simpa [start] using e)
  obtain ⟨x, xs, hx⟩ := List.exists_cons_of_ne_nil hj
  refine ⟨((List.replicate pre.length i).flatMap fun i => [i, i, i]) ++ [i, j, j, j, i], ⟨i, src, .default, .nvcc⟩, ?_, rfl, rfl, ?_⟩
  · rw [run_append, h1]
    have hji : j ≠ i := fun h => hij h.symm
    have hjt : (s.threads j) = ⟨x :: xs, .enter⟩ := by rw [h4 j hji]; simp only [start]; rw [hx]
    have hit : (s.threads i).pc = .enter := hq.2 i
    have s1 : step s i = ⟨.nvcc, setThread s i ⟨src :: post, .call⟩, s.log⟩ := by
      unfold step
      rw [h3]
      simp only [hit]
      rw [if_pos hcu]
    show _ ∈ (step (step (step (step (step s i) j) j) j) i).log
    rw [s1]
    generalize hs1 : (⟨.nvcc, setThread s i ⟨src :: post, .call⟩, s.log⟩ : State) = t1
    have tj : t1.threads j = ⟨x :: xs, .enter⟩ := by rw [← hs1]; simp [setThread, hji, hjt]
    have ti : t1.threads i = ⟨src :: post, .call⟩ := by rw [← hs1]; simp [setThread]
    -- the other thread runs a whole call
    have a1 : ∃ so log, step t1 j = ⟨so, setThread t1 j ⟨x :: xs, .call⟩, log⟩ := by
      rw [step, tj]
      dsimp only
      split
      · exact ⟨_, _, rfl⟩
      · exact ⟨_, _, rfl⟩
    obtain ⟨so, log, a1⟩ := a1
    rw [a1]
    have a2 : ∃ so' log', step ⟨so, setThread t1 j ⟨x :: xs, .call⟩, log⟩ j = ⟨so', setThread t1 j ⟨x :: xs, .leave⟩, log'⟩ := by
      rw [step]
      have : setThread t1 j ⟨x :: xs, .call⟩ j = ⟨x :: xs, .call⟩ := by simp [setThread]
      simp only [this]
      refine ⟨so, log ++ [⟨j, x, so, if splitext x = ".cu".toList then .nvcc else .notNvcc⟩], ?_⟩
      congr 1
      funext k
      by_cases hk : k = j <;> simp [setThread, hk]
    obtain ⟨so', log', a2⟩ := a2
    rw [a2]
    have a3 : step ⟨so', setThread t1 j ⟨x :: xs, .leave⟩, log'⟩ j = ⟨.default, setThread t1 j ⟨xs, .enter⟩, log'⟩ := by
      rw [step]
      have : setThread t1 j ⟨x :: xs, .leave⟩ j = ⟨x :: xs, .leave⟩ := by simp [setThread]
      simp only [this]
      congr 1
      funext k
      by_cases hk : k = j <;> simp [setThread, hk]
    rw [a3, step]
    have : setThread t1 j ⟨xs, .enter⟩ i = ⟨src :: post, .call⟩ := by simp [setThread, hij, ti]
    simp only [this, if_pos hcu]
    simp
  · unfold Right
    simp [hcu]

/-! ## The object files -/

theorem runFiles_append (ex : List (List Text)) (s : Files) (a b : List ℕ) :
    runFiles ex s (a ++ b) = runFiles ex (runFiles ex s a) b := List.foldl_append

/-- **C81** (objects).  If an extension shares no source with another, its linker finds all objects whole, in every
schedule. -/
theorem unshared_whole (extensions : List (List Text)) (i : ℕ)
    (hsep : ∀ j, j ≠ i → ∀ src ∈ extensions.getD j [], src ∉ extensions.getD i []) (schedule : List ℕ) :
    ∀ l ∈ (runFiles extensions (startFiles extensions) schedule).links, l.thread = i → Whole l := by
  suffices h : ∀ s : Files, (∀ j, ∀ src ∈ (s.jobs j).todo, src ∈ extensions.getD j []) →
      (∀ src ∈ extensions.getD i [], src ∉ (s.jobs i).todo → s.object src = .complete) →
      (∀ l ∈ s.links, l.thread = i → Whole l) →
      ∀ l ∈ (runFiles extensions s schedule).links, l.thread = i → Whole l from
    h _ (fun j src hs => hs) (fun src hs hn => absurd hs hn) (by simp [startFiles])
  induction schedule with
  | nil => intro s _ _ h; exact h
  | cons k rest ih =>
    intro s hsub hdone hlinks
    have hsub' : ∀ t : Job, (∀ src ∈ t.todo, src ∈ extensions.getD k []) →
        ∀ j, ∀ src ∈ (setJob s k t j).todo, src ∈ extensions.getD j [] := by
      intro t ht j src hj
      unfold setJob at hj
      split at hj
      · rename_i e; subst e; exact ht _ hj
      · exact hsub _ _ hj
    have hk := hsub k
    show ∀ l ∈ (runFiles extensions (stepFiles extensions s k) rest).links, l.thread = i → Whole l
    unfold stepFiles
    split
    · rename_i src rest' ht
      rw [ht] at hk
      have hsrc := hk src (by simp)
      split
      · refine ih _ (hsub' _ fun x hx => hk x (List.mem_cons_of_mem _ hx)) ?_ hlinks
        intro x hx hn
        simp only [setObject]
        split
        · rfl
        · rename_i hne
          refine hdone x hx fun hmem => ?_
          by_cases hki : i = k
          · subst hki
            rw [ht] at hmem
            simp only [setJob, if_true] at hn
            rcases List.mem_cons.1 hmem with e | e
            · exact hne e
            · exact hn e
          · simp only [setJob, if_neg hki] at hn
            exact hn hmem
      · refine ih _ (hsub' _ hk) ?_ hlinks
        intro x hx hn
        simp only [setObject]
        split
        · rename_i e
          subst e
          by_cases hki : i = k
          · subst hki
            simp [setJob] at hn
          · exact absurd hx (hsep k (fun h => hki h.symm) x hsrc)
        · refine hdone x hx fun hmem => ?_
          by_cases hki : i = k
          · subst hki
            rw [ht] at hmem
            simp only [setJob, if_true] at hn
            exact hn hmem
          · simp only [setJob, if_neg hki] at hn
            exact hn hmem
    · rename_i ht
      split
      · exact ih s hsub hdone hlinks
      · refine ih _ (hsub' _ (by simp)) ?_ ?_
        · intro x hx hn
          refine hdone x hx fun hmem => ?_
          by_cases hki : i = k
          · subst hki
            rw [ht] at hmem
            simp at hmem
          · simp only [setJob, if_neg hki] at hn
            exact hn hmem
        · intro l hl hli
          simp only [List.mem_append, List.mem_singleton] at hl
          rcases hl with hl | rfl
          · exact hlinks l hl hli
          · simp only at hli
            subst hli
            intro o ho
            obtain ⟨x, hx, rfl⟩ := List.mem_map.1 ho
            exact hdone x hx (by rw [ht]; simp)

/-- A thread compiles its first sources. -/
theorem compiles (ex : List (List Text)) (j : ℕ) (pre post : List Text) (s : Files) (hs : s.jobs j = ⟨pre ++ post, false, false⟩) :
    ∃ s', runFiles ex s (List.replicate (2 * pre.length) j) = s' ∧ s'.jobs j = ⟨post, false, false⟩ ∧
      (∀ k, k ≠ j → s'.jobs k = s.jobs k) ∧ s'.links = s.links := by
  induction pre generalizing s with
  | nil => exact ⟨s, rfl, hs, fun _ _ => rfl, rfl⟩
  | cons src rest ih =>
    have e : List.replicate (2 * (src :: rest).length) j = [j, j] ++ List.replicate (2 * rest.length) j := by
      rw [List.length_cons, Nat.mul_succ, Nat.add_comm, List.replicate_add]
      rfl
    have h1 : stepFiles ex s j =
        ⟨setObject s src .unfinished, setJob s j ⟨src :: (rest ++ post), true, false⟩, s.links⟩ := by
      unfold stepFiles
      rw [hs]
      simp
    have h2 : stepFiles ex (stepFiles ex s j) j =
        ⟨setObject (stepFiles ex s j) src .complete, setJob s j ⟨rest ++ post, false, false⟩, s.links⟩ := by
      rw [h1, stepFiles]
      have : setJob s j ⟨src :: (rest ++ post), true, false⟩ j = ⟨src :: (rest ++ post), true, false⟩ := by simp [setJob]
      simp only [this, if_true]
      congr 1
      funext k
      by_cases hk : k = j <;> simp [setJob, hk]
    rw [e, runFiles_append]
    obtain ⟨s', a1, a2, a3, a4⟩ := ih (stepFiles ex (stepFiles ex s j) j) (by rw [h2]; simp [setJob])
    refine ⟨s', a1, a2, fun k hk => ?_, ?_⟩
    · rw [a3 k hk, h2]; simp [setJob, hk]
    · rw [a4, h2]

theorem startFiles_job (ex : List (List Text)) (i : ℕ) (hi : ex.getD i [] ≠ []) :
    (startFiles ex).jobs i = ⟨ex.getD i [], false, false⟩ := by
  have : ¬ ex.length ≤ i := fun h => hi (by rw [List.getD_eq_getElem?_getD, List.getElem?_eq_none h]; rfl)
  simp [startFiles, this]

/-- **C81** (race for the objects), the negation for every pair of extensions that share a source: there is a schedule in
which the linker of the first reads an object that the compiler of the second has emptied. -/
theorem object_race (extensions : List (List Text)) (i j : ℕ) (hij : i ≠ j) (src : Text)
    (hi : src ∈ extensions.getD i []) (hj : src ∈ extensions.getD j []) :
    ∃ schedule, ∃ l ∈ (runFiles extensions (startFiles extensions) schedule).links, l.thread = i ∧ .unfinished ∈ l.objects ∧
      ¬ Whole l := by
  obtain ⟨pre, post, e⟩ := List.append_of_mem hj
  obtain ⟨s1, a1, a2, a3, a4⟩ := compiles extensions i (extensions.getD i []) [] (startFiles extensions)
    (by rw [startFiles_job _ _ (List.ne_nil_of_mem hi)]; simp)
  obtain ⟨s2, b1, b2, b3, b4⟩ := compiles extensions j pre (src :: post) s1
    (by rw [a3 j (fun h => hij h.symm), startFiles_job _ _ (List.ne_nil_of_mem hj), e])
  refine ⟨List.replicate (2 * (extensions.getD i []).length) i ++ (List.replicate (2 * pre.length) j ++ [j, i]),
    ⟨i, (extensions.getD i []).map (setObject s2 src .unfinished)⟩, ?_, rfl, ?_, ?_⟩
  · rw [runFiles_append, a1, runFiles_append, b1]
    have c1 : stepFiles extensions s2 j =
        ⟨setObject s2 src .unfinished, setJob s2 j ⟨src :: post, true, false⟩, s2.links⟩ := by
      unfold stepFiles
      rw [b2]
      simp
    show _ ∈ (stepFiles extensions (stepFiles extensions s2 j) i).links
    rw [c1, stepFiles]
    have c2 : setJob s2 j ⟨src :: post, true, false⟩ i = ⟨[], false, false⟩ := by
      simp only [setJob, if_neg hij]
      rw [b3 i hij, a2]
    simp only [c2]
    simp
  · exact List.mem_map.2 ⟨src, hi, by simp [setObject]⟩
  · intro hw
    have := hw .unfinished (List.mem_map.2 ⟨src, hi, by simp [setObject]⟩)
    simp at this

/-! ## The package -/

open Imate.Build (build Env Tree Extension Macro createAll createExtension addOtherDirs requests options join Options Request)
open Imate.LocateCuda (Host)

theorem createAll_length {o : Options} {h : Host} {tree : Tree} {package : Text} (rs : List Request)
    {s t : List Extension × List Macro} (hc : createAll o h tree package rs s = .ok t) :
    ∀ k (hk : k < rs.length), ∃ e m m', t.1[s.1.length + k]? = some e ∧
      createExtension o h tree package rs[k] m = .ok (e, m') := by
  induction rs generalizing s with
  | nil => intro k hk; simp at hk
  | cons r rest ih =>
    rw [createAll] at hc
    cases hr : createExtension o h tree package r s.2 with
    | error x => simp [hr, bind, Except.bind] at hc
    | ok p =>
      obtain ⟨e, m⟩ := p
      simp only [hr, bind, Except.bind] at hc
      intro k hk
      cases k with
      | zero =>
        refine ⟨e, s.2, m, ?_, hr⟩
        have hpre : ∀ (rs : List Request) {s t : List Extension × List Macro}, createAll o h tree package rs s = .ok t →
            s.1 <+: t.1 := by
          intro rs
          induction rs with
          | nil => intro s t hc; simp only [createAll, Except.ok.injEq] at hc; rw [hc]; exact List.prefix_rfl
          | cons r rest ih =>
            intro s t hc
            rw [createAll] at hc
            cases hr : createExtension o h tree package r s.2 with
            | error x => simp [hr, bind, Except.bind] at hc
            | ok p =>
              simp only [hr, bind, Except.bind] at hc
              exact (List.prefix_append _ _).trans (ih hc)
        obtain ⟨q, hq⟩ := hpre rest hc
        rw [← hq]
        simp
      | succ k =>
        obtain ⟨e', a, b, h1, h2⟩ := ih hc k (by simpa using hk)
        refine ⟨e', a, b, ?_, by simpa using h2⟩
        rw [← h1]
        congr 1
        simp
        omega

theorem addOtherDirs_sources {o : Options} {tree : Tree} {package : Text} (dirs : List Text) {s t : List Text × List Text}
    (hc : addOtherDirs o tree package dirs s = .ok t) : (∀ x ∈ s.1, x ∈ t.1) ∧
    ∀ d ∈ dirs, ∀ x ∈ tree.glob (join package d) ".cpp".toList, x ∈ t.1 := by
  induction dirs generalizing s with
  | nil =>
    simp only [addOtherDirs, Except.ok.injEq] at hc
    subst hc
    exact ⟨fun x hx => hx, by simp⟩
  | cons d rest ih =>
    obtain ⟨src, inc⟩ := s
    rw [addOtherDirs] at hc
    split at hc
    · simp at hc
    · obtain ⟨h1, h2⟩ := ih hc
      refine ⟨fun x hx => h1 x ?_, fun d' hd x hx => ?_⟩
      · dsimp only
        split <;> simp [hx]
      · rcases List.mem_cons.1 hd with rfl | hd
        · refine h1 x ?_
          dsimp only
          split
          · exact List.mem_append_left _ (List.mem_append_right _ hx)
          · exact List.mem_append_right _ hx
        · exact h2 d' hd x hx

theorem createExtension_sources {o : Options} {h : Host} {tree : Tree} {package : Text} {r : Request} {m m' : List Macro}
    {e : Extension} (hc : createExtension o h tree package r m = .ok (e, m')) {d : Text} (hd : d ∈ r.otherSourceDirs) :
    ∀ x ∈ tree.glob (join package d) ".cpp".toList, x ∈ e.sources := by
  intro x hx
  obtain ⟨-, src, inc, ha, hcase⟩ := Build.createExtension_cases hc
  have h1 := (addOtherDirs_sources _ ha).2 d hd x hx
  rcases hcase with ⟨-, h2, -⟩ | ⟨-, -, cuda, -, h2, -⟩
  · rw [h2]; exact h1
  · rw [h2]
    split
    · exact List.mem_append_left _ h1
    · exact h1

/-- **C81** (this package).  Whatever the environment, the machine and the sources: if the build gets as far as compiling and
there is a C++ source in `_c_basic_algebra`, there is a schedule in which the extension `_linear_algebra` is linked with an
unfinished object. -/
theorem package_race (env : Env) (h : Host) (tree : Tree) {exts : List Extension} {macros : List Macro}
    (hb : build env h tree = .ok (exts, macros))
    (hsrc : tree.glob "imate/_c_basic_algebra".toList ".cpp".toList ≠ []) :
    ∃ schedule, ∃ l ∈ (runFiles (exts.map (·.sources)) (startFiles (exts.map (·.sources))) schedule).links,
      l.thread = 2 ∧ ¬ Whole l := by
  obtain ⟨x, hx⟩ := List.exists_mem_of_ne_nil _ hsrc
  have hlen : 15 ≤ (requests (options env).useCuda).length := by cases (options env).useCuda <;> decide
  have key : ∀ k (hk : k < (requests (options env).useCuda).length),
      "_c_basic_algebra".toList ∈ ((requests (options env).useCuda)[k]).otherSourceDirs →
      x ∈ (exts.map (·.sources)).getD k [] := by
    intro k hk hd
    obtain ⟨e, m, m', h1, h2⟩ := createAll_length _ hb k hk
    have h3 := createExtension_sources h2 hd x hx
    rw [List.getD_eq_getElem?_getD, List.getElem?_map]
    have h4 : exts[k]? = some e := by simpa using h1
    rw [h4]
    exact h3
  have k2 : ∀ b (hk : 2 < (requests b).length), "_c_basic_algebra".toList ∈ ((requests b)[2]).otherSourceDirs := by
    intro b; cases b <;> decide
  have k3 : ∀ b (hk : 3 < (requests b).length), "_c_basic_algebra".toList ∈ ((requests b)[3]).otherSourceDirs := by
    intro b; cases b <;> decide
  obtain ⟨sch, l, h1, h2, -, h3⟩ := object_race (exts.map (·.sources)) 2 3 (by decide) x
    (key 2 (by omega) (k2 _ _)) (key 3 (by omega) (k3 _ _))
  exact ⟨sch, l, h1, h2, h3⟩

/-! ## Examples -/

/-- Two extensions as in the package. -/
def exampleExtensions : List (List Text) :=
  [["a/query.cu".toList, "a/py.cpp".toList], ["b/lin.cpp".toList, "a/py.cpp".toList]]

example : (run (start exampleExtensions) [0, 0, 0, 1, 1, 1, 0, 0, 0, 1, 1, 1]).log =
    [⟨0, "a/query.cu".toList, .nvcc, .nvcc⟩, ⟨1, "b/lin.cpp".toList, .default, .notNvcc⟩,
     ⟨0, "a/py.cpp".toList, .default, .notNvcc⟩, ⟨1, "a/py.cpp".toList, .default, .notNvcc⟩] := by decide +kernel

example : Serial [0, 0, 0, 1, 1, 1, 0, 0, 0, 1, 1, 1] := ⟨[0, 1, 0, 1], rfl⟩

/-- The other way round, a C++ source is handed to `nvcc`. -/
example : (run (start exampleExtensions) [0, 1, 1]).log = [⟨1, "b/lin.cpp".toList, .nvcc, .notNvcc⟩] := by decide +kernel

example : ∃ schedule, ∃ c ∈ (run (start exampleExtensions) schedule).log, c.source = "a/query.cu".toList ∧ c.tool = .default ∧
    ¬ Right c := compiler_race exampleExtensions 0 1 (by decide) _ (by decide +kernel) (by decide +kernel) (by decide +kernel)

example : ∃ schedule, ∃ l ∈ (runFiles exampleExtensions (startFiles exampleExtensions) schedule).links, l.thread = 0 ∧
    .unfinished ∈ l.objects ∧ ¬ Whole l :=
  object_race exampleExtensions 0 1 (by decide) "a/py.cpp".toList (by decide +kernel) (by decide +kernel)

/-- Without shared sources and without CUDA the hypotheses of the positive theorems hold. -/
example : (∀ e ∈ [["a/x.cpp".toList], ["b/y.cpp".toList]], ∀ src ∈ e, splitext src ≠ ".cu".toList) ∧
    (∀ j, j ≠ 0 → ∀ src ∈ [["a/x.cpp".toList], ["b/y.cpp".toList]].getD j [], src ∉ [["a/x.cpp".toList], ["b/y.cpp".toList]].getD 0 []) := by
  refine ⟨by decide +kernel, fun j hj src hs => ?_⟩
  match j with
  | 0 => exact absurd rfl hj
  | 1 =>
    have : src = "b/y.cpp".toList := by simpa using hs
    subst this
    decide +kernel
  | j + 2 => simp at hs

example : ∃ exts macros, build Build.exampleEnv Build.exampleHost Build.exampleTree = .ok (exts, macros) ∧
    Build.exampleTree.glob "imate/_c_basic_algebra".toList ".cpp".toList ≠ [] := by
  obtain ⟨exts, macros, h, -⟩ := Build.example_build
  exact ⟨exts, macros, h, by decide +kernel⟩

end Imate.Props.BuildThreads
