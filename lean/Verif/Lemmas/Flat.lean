import Verif.Model.Flat
import Verif.Lemmas.KernelsLong

/-! Helper lemmas: the flat-memory Krylov layer refines the layer on rows. -/

set_option linter.unusedSectionVars false

namespace Imate.Flat

open Imate.Lanczos VectorOps Matrix

variable {K : Type _} [Field K] [LinearOrder K] {n : Nat}

theorem bind_ok {α β : Type _} {x : Except Fault α} {f : α → Except Fault β} {b : β}
    (h : (x >>= f) = .ok b) : ∃ a, x = .ok a ∧ f a = .ok b := by
  cases x with
  | ok a => exact ⟨a, rfl, h⟩
  | error e => cases h

theorem loopN_sim {σ τ : Type _} (R : σ → τ → Prop) {step : Nat}
    {bodyC : Nat → σ → Except Fault σ} {bodyA : Nat → τ → Except Fault τ}
    (hb : ∀ i s t t', R s t → bodyA i t = .ok t' → ∃ s', bodyC i s = .ok s' ∧ R s' t') :
    ∀ (k i : Nat) (s : σ) (t t' : τ), R s t → loopN step bodyA k i t = .ok t' →
      ∃ s', loopN step bodyC k i s = .ok s' ∧ R s' t' := by
  intro k
  induction k with
  | zero => intro i s t t' h h'; cases h'; exact ⟨s, rfl, h⟩
  | succ k ih =>
    intro i s t t' h h'
    obtain ⟨t1, h1, h2⟩ := bind_ok h'
    obtain ⟨s1, h3, h4⟩ := hb i s t t1 h h1
    obtain ⟨s2, h5, h6⟩ := ih _ s1 t1 t' h4 h2
    exact ⟨s2, by simp only [loopN, h3, Except.ok_bind', h5], h6⟩

theorem forRange_sim {σ τ : Type _} (R : σ → τ → Prop) {lo hi : Nat}
    {bodyC : Nat → σ → Except Fault σ} {bodyA : Nat → τ → Except Fault τ}
    (hb : ∀ i s t t', R s t → bodyA i t = .ok t' → ∃ s', bodyC i s = .ok s' ∧ R s' t')
    {s : σ} {t t' : τ} (h : R s t) (h' : forRange lo hi bodyA t = .ok t') :
    ∃ s', forRange lo hi bodyC s = .ok s' ∧ R s' t' :=
  loopN_sim R hb _ _ _ _ _ h h'

/-- The flat buffer `F` holds the rows of `V` that have a value. -/
structure Rel (F : Array K) (V : Rows K n) : Prop where
  size : F.size = n * V.size
  cell : ∀ i v, V[i]? = some (some v) → ∀ k : Fin n, F[i * n + k.1]? = some (v k)

theorem pointer_get (a : Array K) (o k : Nat) : (pointer a o)[k]? = a[o + k]? := by
  unfold pointer
  rw [Array.getElem?_extract]
  split
  · rfl
  · rw [Array.getElem?_eq_none (by omega)]

theorem pointer_size (a : Array K) (o : Nat) : (pointer a o).size = a.size - o := by
  simp [pointer]

theorem load_ok {V : Rows K n} {i : Nat} {v : Fin n → K} (h : load V i = .ok v) :
    V[i]? = some (some v) := by
  unfold load at h
  obtain ⟨x, h1, h2⟩ := bind_ok h
  unfold rd at h1
  cases hv : V[i]? with
  | none => rw [hv] at h1; cases h1
  | some y =>
    rw [hv] at h1
    cases h1
    cases x with
    | none => cases h2
    | some z => cases h2; rfl

theorem Rel.begins {F : Array K} {V : Rows K n} (h : Rel F V) {i : Nat} {v : Fin n → K}
    (hl : load V i = .ok v) : Begins (pointer F (i * n)) v := by
  intro k
  rw [pointer_get]
  exact h.cell i v (load_ok hl) k

theorem Rel.room {F : Array K} {V : Rows K n} (h : Rel F V) {i : Nat} (hi : i < V.size) :
    n ≤ (pointer F (i * n)).size := by
  rw [pointer_size, h.size]
  have : (i + 1) * n ≤ V.size * n := Nat.mul_le_mul_right n hi
  rw [Nat.mul_comm n V.size]
  rw [Nat.add_mul] at this
  omega

theorem wr_ok_inv {α : Type _} {a a' : Array α} {i : Nat} {x : α} (h : wr a i x = .ok a') :
    ∃ hi : i < a.size, a' = a.set i x hi := by
  unfold wr at h
  split at h
  · rename_i hi; cases h; exact ⟨hi, rfl⟩
  · cases h

theorem rd_ok_inv {α : Type _} {a : Array α} {i : Nat} {x : α} (h : rd a i = .ok x) :
    a[i]? = some x := by
  unfold rd at h
  cases hv : a[i]? with
  | none => rw [hv] at h; cases h
  | some y => rw [hv] at h; cases h; rfl

/-- Writing a row through a pointer. -/
theorem Rel.write {F : Array K} {V V' : Rows K n} (h : Rel F V) {i : Nat}
    {x : Option (Fin n → K)} (hs : store V i x = .ok V') {c : Array K} {w : Fin n → K}
    (hx : ∀ u, x = some u → u = w) (hc : Updated (pointer F (i * n)) c w) :
    Rel (F.extract 0 (i * n) ++ c) V' := by
  obtain ⟨hi, rfl⟩ := wr_ok_inv hs
  have hroom := h.room hi
  rw [pointer_size] at hroom
  have hle : i * n ≤ F.size := by
    rw [h.size, Nat.mul_comm n]; exact Nat.mul_le_mul_right n (by omega)
  have hsz := hc.size
  rw [pointer_size] at hsz
  constructor
  · rw [Array.size_append, Array.size_extract, hsz]
    simp only [Array.size_set]
    rw [← h.size]; omega
  · intro j v hj k
    have hk := k.2
    rw [Array.getElem?_append]
    have hsize : (F.extract 0 (i * n)).size = i * n := by
      rw [Array.size_extract]; omega
    rw [hsize]
    by_cases hij : i = j
    · subst hij
      rw [Array.getElem?_set_self] at hj
      have := hx v (by simpa using hj)
      subst this
      rw [if_neg (by omega), Nat.add_sub_cancel_left]
      exact hc.begins k
    · rw [Array.getElem?_set_ne _ hij] at hj
      have hcell := h.cell j v hj k
      rcases Nat.lt_or_ge j i with hlt | hge
      · have hb : j * n + k.1 < i * n := by
          have : (j + 1) * n ≤ i * n := Nat.mul_le_mul_right n hlt
          rw [Nat.add_mul] at this
          omega
        rw [if_pos hb, Array.getElem?_extract, if_pos (by omega), Nat.zero_add]
        exact hcell
      · have hb : (i + 1) * n ≤ j * n := Nat.mul_le_mul_right n (by omega)
        rw [Nat.add_mul] at hb
        rw [if_neg (by omega), hc.rest _ (by omega), pointer_get,
          show i * n + (j * n + k.1 - i * n) = j * n + k.1 by omega]
        exact hcell

theorem Rel.through {F : Array K} {V V' : Rows K n} (h : Rel F V) {i : Nat}
    {x : Option (Fin n → K)} (hs : store V i x = .ok V') {f : Array K → Except Fault (Array K)}
    {w : Fin n → K} (hx : ∀ u, x = some u → u = w)
    (hf : ∃ c, f (pointer F (i * n)) = .ok c ∧ Updated (pointer F (i * n)) c w) :
    ∃ F', Flat.through F (i * n) f = .ok F' ∧ Rel F' V' := by
  obtain ⟨c, h1, h2⟩ := hf
  refine ⟨_, ?_, h.write hs hx h2⟩
  unfold Flat.through
  rw [h1]; rfl

/-- The product routine `dot` computes `d` through pointers. -/
def Computes (dot : Product K) (d : (Fin n → K) → Except Fault (Fin n → K)) : Prop :=
  ∀ (b c : Array K) (v w : Fin n → K), Begins b v → n ≤ c.size → d v = .ok w →
    ∃ c', dot b c = .ok c' ∧ Updated c c' w

theorem gsStep_refines (sqrt : K → K) (eps : K) {a b : Array K} {Vi v : Fin n → K}
    (ha : Begins a Vi) (hb : Begins b v) :
    ∃ b', gsStep sqrt eps n a b = .ok b' ∧ Updated b b' (Lanczos.gsStep sqrt eps Vi v) := by
  unfold gsStep Lanczos.gsStep Lanczos.norm
  simp only [euclideanNorm_long sqrt ha, Except.ok_bind', innerProduct_long ha hb]
  split
  · exact ⟨b, rfl, Updated.refl hb⟩
  · unfold tooClose
    by_cases h1 : |(|Vi ⬝ᵥ v / (sqrt (Vi ⬝ᵥ Vi) * sqrt (Vi ⬝ᵥ Vi))| - 1)| ≤ 2 * eps
    · simp only [h1, if_true, euclideanNorm_long sqrt hb, Except.ok_bind', true_and,
        decide_eq_true_eq]
      split
      · exact ⟨b, rfl, Updated.refl hb⟩
      · exact subtractScaledVector_long ha _ hb
    · simp only [h1, if_false, false_and, Except.ok_bind', Bool.false_eq_true]
      exact subtractScaledVector_long ha _ hb

theorem gramSchmidt_refines (sqrt : K → K) (eps : K) {F : Array K} {V : Rows K n} (hR : Rel F V)
    (nv last : Nat) (no : Int) {r : Array K} {v v' : Fin n → K} (hr : Begins r v)
    (h : Lanczos.gramSchmidt sqrt eps V nv last no v = .ok v') :
    ∃ r', gramSchmidt sqrt eps F n nv last no r = .ok r' ∧ Updated r r' v' := by
  unfold gramSchmidt
  unfold Lanczos.gramSchmidt at h
  refine forRange_sim (fun r' v' => Updated r r' v') ?_ (Updated.refl hr) h
  intro i s t t' hst hb
  obtain ⟨Vi, h1, h2⟩ := bind_ok hb
  cases h2
  have hB := hR.begins h1
  rw [Nat.mul_comm] at hB
  obtain ⟨s', h3, h4⟩ := gsStep_refines sqrt eps hB hst.begins
  exact ⟨s', h3, hst.trans h4⟩

theorem gramSchmidtIn_refines (sqrt : K → K) (eps : K) {F : Array K} {V V' : Rows K n}
    (hR : Rel F V) (nv last : Nat) (no : Int) (slot : Nat)
    (h : Lanczos.gramSchmidtIn sqrt eps V nv last no slot = .ok V') :
    ∃ F', gramSchmidtIn sqrt eps F n nv last no slot = .ok F' ∧ Rel F' V' := by
  unfold gramSchmidtIn
  unfold Lanczos.gramSchmidtIn at h
  refine forRange_sim (fun F V => Rel F V) ?_ hR h
  intro i s t t' hst hb
  obtain ⟨Vi, h1, hb⟩ := bind_ok hb
  obtain ⟨v, h2, hb⟩ := bind_ok hb
  have hB := hst.begins h1
  rw [Nat.mul_comm] at hB
  exact hst.through hb (w := Lanczos.gsStep sqrt eps Vi v) (by rintro u ⟨⟩; rfl)
    (gsStep_refines sqrt eps hB (hst.begins h2))

/-! ### Lanczos -/

/-- Simulation relation of the two Lanczos states. -/
structure LRel (s : LanczosState K) (t : Lanczos.LanczosState K n) : Prop where
  V : Rel s.V t.V
  r : Begins s.r t.r
  alpha : s.alpha = t.alpha
  beta : s.beta = t.beta
  size : s.size = t.size
  stop : s.stop = t.stop

theorem divide_scaled {r u : Fin n → K} {c : K} (h : divide r c = some u) : u = (1 / c) • r := by
  unfold divide at h
  split at h
  · cases h
  · cases h
    funext i
    simp [div_eq_inv_mul]

theorem lanczosNormalize_refines {s : LanczosState K} {t : Lanczos.LanczosState K n}
    (h : LRel s t) (buf : Nat) (b0 : K) (j : Nat) {V' : Rows K n}
    (hb : Lanczos.lanczosNormalize buf b0 j t = .ok V') :
    ∃ F', lanczosNormalize n buf b0 j s = .ok F' ∧ Rel F' V' := by
  unfold Lanczos.lanczosNormalize at hb
  unfold lanczosNormalize
  have key : ∀ c : K, store t.V (j % buf) (divide t.r c) = .ok V' →
      ∃ F', Flat.through s.V (j % buf * n) (copyScaledVector s.r n (1 / c)) = .ok F' ∧ Rel F' V' := by
    intro c hc
    obtain ⟨hi, _⟩ := wr_ok_inv hc
    exact h.V.through hc (fun u hu => divide_scaled hu) (copyScaledVector_long h.r _ _ (h.V.room hi))
  split
  · rename_i h0
    rw [if_pos h0] at hb
    exact key _ hb
  · rename_i h0
    rw [if_neg h0] at hb
    obtain ⟨c, h1, h2⟩ := bind_ok hb
    rw [h.beta, h1]
    exact key c h2

theorem lanczosBody_refines (sqrt : K → K) (eps : K) {dot : Product K}
    {d : (Fin n → K) → Except Fault (Fin n → K)} (hd : Computes dot d) (tol : K) (orth : Int)
    (buf : Nat) (b0 : K) (j : Nat) {s : LanczosState K} {t t' : Lanczos.LanczosState K n}
    (h : LRel s t) (hb : Lanczos.lanczosBody sqrt eps d tol orth buf b0 j t = .ok t') :
    ∃ s', lanczosBody sqrt eps dot n tol orth buf b0 j s = .ok s' ∧ LRel s' t' := by
  unfold Lanczos.lanczosBody at hb
  obtain ⟨V, e1, hb⟩ := bind_ok hb
  obtain ⟨vj, e2, hb⟩ := bind_ok hb
  obtain ⟨r1, e3, hb⟩ := bind_ok hb
  obtain ⟨alpha, e4, hb⟩ := bind_ok hb
  obtain ⟨r2, e5, hb⟩ := bind_ok hb
  obtain ⟨r3, e6, hb⟩ := bind_ok hb
  obtain ⟨beta, e7, hb⟩ := bind_ok hb
  cases hb
  unfold lanczosBody
  obtain ⟨F, f1, hF⟩ := lanczosNormalize_refines h buf b0 j e1
  have hvj := hF.begins e2
  obtain ⟨q1, f2, u1⟩ := hd _ s.r _ _ hvj h.r.le e3
  obtain ⟨q2, f3, u2⟩ := subtractScaledVector_long hvj (vj ⬝ᵥ r1) u1.begins
  have f4 : ∃ q3, lanczosSubtractPrevious n buf F s.beta j q2 = .ok q3 ∧ Begins q3 r2 := by
    unfold Lanczos.lanczosSubtractPrevious at e5
    unfold lanczosSubtractPrevious
    split
    · rename_i h0
      rw [if_pos h0] at e5
      obtain ⟨vp, g1, e5⟩ := bind_ok e5
      obtain ⟨c, g2, e5⟩ := bind_ok e5
      cases e5
      rw [h.beta, g2]
      simp only [Except.ok_bind']
      obtain ⟨q3, g3, g4⟩ := subtractScaledVector_long (hF.begins g1) c u2.begins
      exact ⟨q3, g3, g4.begins⟩
    · rename_i h0
      rw [if_neg h0] at e5
      cases e5
      exact ⟨q2, rfl, u2.begins⟩
  obtain ⟨q3, f4, u3⟩ := f4
  have f5 : ∃ q4, lanczosReorthogonalize sqrt eps orth n buf F j q3 = .ok q4 ∧ Begins q4 r3 := by
    unfold Lanczos.lanczosReorthogonalize at e6
    unfold lanczosReorthogonalize
    by_cases h0 : orth ≠ 0
    · rw [if_pos h0] at e6 ⊢
      obtain ⟨q4, g1, g2⟩ := gramSchmidt_refines sqrt eps hF _ _ _ u3 e6
      exact ⟨q4, g1, g2.begins⟩
    · rw [if_neg h0] at e6 ⊢
      cases e6
      exact ⟨q3, rfl, u3⟩
  obtain ⟨q4, f5, u4⟩ := f5
  simp only [f1, Except.ok_bind', f2, innerProduct_long hvj u1.begins, h.alpha, e4, f3, f4, f5,
    euclideanNorm_long sqrt u4]
  refine ⟨⟨F, q4, alpha, beta, t.size + 1, _⟩, ?_, ⟨hF, u4, rfl, rfl, rfl, rfl⟩⟩
  have : s.beta = t.beta := h.beta
  rw [this]
  unfold Lanczos.norm at e7
  rw [e7, h.size]
  rfl

/-- The flat-memory Lanczos iteration returns what the iteration on rows returns, whatever the
fresh buffers contain. -/
theorem lanczos_refines (sqrt : K → K) (eps : K) {dot : Product K}
    {d : (Fin n → K) → Except Fault (Fin n → K)} (hd : Computes dot d) {a : Array K}
    {v : Fin n → K} (ha : Begins a v) (m : Nat) (tol : K) (orth : Int) (junkV junkR : Nat → K)
    (alpha beta : Array K) {c : Coefficients K}
    (h : Lanczos.lanczos sqrt eps d v m tol orth alpha beta = .ok c) :
    lanczos sqrt eps dot a n m tol orth junkV junkR alpha beta = .ok c := by
  unfold Lanczos.lanczos at h
  obtain ⟨t', h1, h2⟩ := bind_ok h
  cases h2
  unfold lanczos
  obtain ⟨r, g1, g2⟩ := copyVector_long ha (Array.ofFn (fun i : Fin n => junkR i)) (by simp)
  simp only [g1, Except.ok_bind', euclideanNorm_long sqrt g2.begins]
  obtain ⟨s', g3, g4⟩ := forRange_sim (fun s t => LRel s t) (bodyC := fun j s =>
      if s.stop then .ok s
      else lanczosBody sqrt eps dot n tol orth (lanczosBufferSize m orth) (sqrt (v ⬝ᵥ v)) j s)
    (by
      intro i s t t' hst hb
      by_cases hs : t.stop = true
      · rw [if_pos hs] at hb
        cases hb
        exact ⟨s, by rw [hst.stop, if_pos hs], hst⟩
      · rw [if_neg hs] at hb
        simp only [hst.stop, if_neg hs]
        exact lanczosBody_refines sqrt eps hd tol orth _ _ i hst hb)
    (s := ⟨Array.ofFn (fun i : Fin (n * lanczosBufferSize m orth) => junkV i), r, alpha, beta, 0,
      false⟩) (by
      refine ⟨⟨by simp, ?_⟩, g2.begins, rfl, rfl, rfl, rfl⟩
      intro i v hv
      simp [Array.getElem?_replicate] at hv) h1
  simp only [g3, Except.ok_bind', g4.size, g4.alpha, g4.beta]

/-! ### Golub-Kahn -/

/-- Simulation relation of the two Golub-Kahn states. -/
structure GRel (s : GKState K) (t : Lanczos.GKState K n) : Prop where
  U : Rel s.U t.U
  V : Rel s.V t.V
  alpha : s.alpha = t.alpha
  beta : s.beta = t.beta
  size : s.size = t.size
  stop : s.stop = t.stop

theorem subtractIn_refines {F : Array K} {V V' : Rows K n} (hR : Rel F V) {i k : Nat} {c : K}
    (h : subtractIn V i c k = .ok V') :
    ∃ F', Flat.through F (k * n) (subtractScaledVector (pointer F (i * n)) n c) = .ok F' ∧
      Rel F' V' := by
  unfold subtractIn at h
  obtain ⟨x, h1, h⟩ := bind_ok h
  obtain ⟨y, h2, h⟩ := bind_ok h
  exact hR.through h (w := y - c • x) (by rintro u ⟨⟩; rfl)
    (subtractScaledVector_long (hR.begins h1) c (hR.begins h2))

theorem normalizeIn_refines (sqrt : K → K) {F : Array K} {V V' : Rows K n} (hR : Rel F V) {k : Nat}
    {c : K} (h : normalizeIn sqrt V k = .ok (V', c)) :
    ∃ F', normalizeAt sqrt F (k * n) n = .ok (F', c) ∧ Rel F' V' := by
  unfold normalizeIn at h
  obtain ⟨x, h1, h⟩ := bind_ok h
  obtain ⟨V1, h2, h⟩ := bind_ok h
  cases h
  obtain ⟨c', g1, g2⟩ := normalizeInPlace_long sqrt (hR.begins h1)
  refine ⟨_, ?_, hR.write h2 (w := fun i => x i / sqrt (x ⬝ᵥ x)) ?_ g2⟩
  · unfold normalizeAt
    rw [g1]; rfl
  · intro u hu
    unfold divide Lanczos.norm at hu
    split at hu
    · cases hu
    · cases hu; rfl

theorem golubKahnBody_refines (sqrt : K → K) (eps : K) {dot tdot : Product K}
    {d td : (Fin n → K) → Except Fault (Fin n → K)} (hd : Computes dot d) (htd : Computes tdot td)
    (tol : K) (orth : Int) (buf : Nat) (j : Nat) {s : GKState K} {t t' : Lanczos.GKState K n}
    (h : GRel s t) (hb : Lanczos.golubKahnBody sqrt eps d td tol orth buf j t = .ok t') :
    ∃ s', golubKahnBody sqrt eps dot tdot n tol orth buf j s = .ok s' ∧ GRel s' t' := by
  unfold Lanczos.golubKahnBody at hb
  obtain ⟨vj, e1, hb⟩ := bind_ok hb
  obtain ⟨y, e2, hb⟩ := bind_ok hb
  obtain ⟨U1, e3, hb⟩ := bind_ok hb
  obtain ⟨U2, e4, hb⟩ := bind_ok hb
  obtain ⟨U3, e5, hb⟩ := bind_ok hb
  obtain ⟨⟨U4, a⟩, e6, hb⟩ := bind_ok hb
  obtain ⟨alpha, e7, hb⟩ := bind_ok hb
  obtain ⟨uj, e8, hb⟩ := bind_ok hb
  obtain ⟨z, e9, hb⟩ := bind_ok hb
  obtain ⟨V1, e10, hb⟩ := bind_ok hb
  obtain ⟨V2, e11, hb⟩ := bind_ok hb
  obtain ⟨V3, e12, hb⟩ := bind_ok hb
  obtain ⟨⟨V4, b⟩, e13, hb⟩ := bind_ok hb
  obtain ⟨beta, e14, hb⟩ := bind_ok hb
  cases hb
  unfold golubKahnBody
  obtain ⟨hi1, _⟩ := wr_ok_inv e3
  obtain ⟨F1, f1, hF1⟩ := h.U.through e3 (f := dot (pointer s.V (j % buf * n))) (w := y)
    (by rintro u ⟨⟩; rfl) (hd _ _ _ _ (h.V.begins e1) (h.U.room hi1) e2)
  have f2 : ∃ F2, gkSubtractPrevious n buf F1 s.beta j = .ok F2 ∧ Rel F2 U2 := by
    unfold Lanczos.gkSubtractPrevious at e4
    unfold gkSubtractPrevious
    split
    · rename_i h0
      rw [if_pos h0] at e4
      obtain ⟨c, g1, e4⟩ := bind_ok e4
      rw [h.beta, g1]
      exact subtractIn_refines hF1 e4
    · rename_i h0
      rw [if_neg h0] at e4
      cases e4
      exact ⟨F1, rfl, hF1⟩
  obtain ⟨F2, f2, hF2⟩ := f2
  have f3 : ∃ F3, gkReorthogonalizeU sqrt eps orth n buf F2 j = .ok F3 ∧ Rel F3 U3 := by
    unfold Lanczos.gkReorthogonalizeU at e5
    unfold gkReorthogonalizeU
    split
    · rename_i h0
      rw [if_pos h0] at e5
      exact gramSchmidtIn_refines sqrt eps hF2 _ _ _ _ e5
    · rename_i h0
      rw [if_neg h0] at e5
      cases e5
      exact ⟨F2, rfl, hF2⟩
  obtain ⟨F3, f3, hF3⟩ := f3
  obtain ⟨F4, f4, hF4⟩ := normalizeIn_refines sqrt hF3 e6
  obtain ⟨hi2, _⟩ := wr_ok_inv e10
  obtain ⟨G1, f5, hG1⟩ := h.V.through e10 (f := tdot (pointer F4 (j % buf * n))) (w := z)
    (by rintro u ⟨⟩; rfl) (htd _ _ _ _ (hF4.begins e8) (h.V.room hi2) e9)
  obtain ⟨G2, f6, hG2⟩ := subtractIn_refines hG1 e11
  have f7 : ∃ G3, gkReorthogonalizeV sqrt eps orth n buf G2 j = .ok G3 ∧ Rel G3 V3 := by
    unfold Lanczos.gkReorthogonalizeV at e12
    unfold gkReorthogonalizeV
    split
    · rename_i h0
      rw [if_pos h0] at e12
      exact gramSchmidtIn_refines sqrt eps hG2 _ _ _ _ e12
    · rename_i h0
      rw [if_neg h0] at e12
      cases e12
      exact ⟨G2, rfl, hG2⟩
  obtain ⟨G3, f7, hG3⟩ := f7
  obtain ⟨G4, f8, hG4⟩ := normalizeIn_refines sqrt hG3 e13
  simp only [f1, Except.ok_bind', f2, f3, f4, h.alpha, e7, f5, f6, f7, f8]
  refine ⟨⟨F4, G4, alpha, beta, t.size + 1, _⟩, ?_, ⟨hF4, hG4, rfl, rfl, rfl, rfl⟩⟩
  have : s.beta = t.beta := h.beta
  rw [this, e14, h.size]
  rfl

/-- The flat-memory Golub-Kahn iteration on a square operator returns what the iteration on rows
returns, whatever the fresh buffers contain. -/
theorem golubKahn_refines (sqrt : K → K) (eps : K) {dot tdot : Product K}
    {d td : (Fin n → K) → Except Fault (Fin n → K)} (hd : Computes dot d) (htd : Computes tdot td)
    {a : Array K} {v : Fin n → K} (ha : Begins a v) (m : Nat) (tol : K) (orth : Int)
    (junkU junkV : Nat → K) (alpha beta : Array K) {c : Coefficients K}
    (h : Lanczos.golubKahn sqrt eps d td v m tol orth alpha beta = .ok c) :
    golubKahn sqrt eps dot tdot a n m tol orth junkU junkV alpha beta = .ok c := by
  unfold Lanczos.golubKahn at h
  obtain ⟨V0, h0, h⟩ := bind_ok h
  obtain ⟨t', h1, h2⟩ := bind_ok h
  cases h2
  unfold golubKahn
  have hR0 : Rel (Array.ofFn (fun i : Fin (n * golubKahnBufferSize m orth) => junkV i))
      (Array.replicate (golubKahnBufferSize m orth) (none : Option (Fin n → K))) := by
    refine ⟨by simp, ?_⟩
    intro i v hv
    simp [Array.getElem?_replicate] at hv
  have hR1 : Rel (Array.ofFn (fun i : Fin (n * golubKahnBufferSize m orth) => junkU i))
      (Array.replicate (golubKahnBufferSize m orth) (none : Option (Fin n → K))) := by
    refine ⟨by simp, ?_⟩
    intro i v hv
    simp [Array.getElem?_replicate] at hv
  obtain ⟨hi, _⟩ := wr_ok_inv h0
  have hroom := hR0.room hi
  rw [Nat.zero_mul, pointer_size, Nat.sub_zero] at hroom
  obtain ⟨F0, g1, g2⟩ := normalizeAndCopy_long sqrt ha
    (Array.ofFn (fun i : Fin (n * golubKahnBufferSize m orth) => junkV i)) hroom
  have hF0 : Rel F0 V0 := by
    have := hR0.write h0 (c := F0) (w := fun i => v i / sqrt (v ⬝ᵥ v)) (by
      intro u hu
      unfold divide Lanczos.norm at hu
      split at hu
      · cases hu
      · cases hu; rfl) (by rw [Nat.zero_mul, pointer, Array.extract_size]; exact g2)
    simpa using this
  simp only [g1, Except.ok_bind']
  obtain ⟨s', g3, g4⟩ := forRange_sim (fun s t => GRel s t) (bodyC := fun j s =>
      if s.stop then .ok s
      else golubKahnBody sqrt eps dot tdot n tol orth (golubKahnBufferSize m orth) j s)
    (by
      intro i s t t' hst hb
      by_cases hs : t.stop = true
      · rw [if_pos hs] at hb
        cases hb
        exact ⟨s, by rw [hst.stop, if_pos hs], hst⟩
      · rw [if_neg hs] at hb
        simp only [hst.stop, if_neg hs]
        exact golubKahnBody_refines sqrt eps hd htd tol orth _ i hst hb)
    (s := ⟨Array.ofFn (fun i : Fin (n * golubKahnBufferSize m orth) => junkU i), F0, alpha, beta, 0,
      false⟩) ⟨hR1, hF0, rfl, rfl, rfl, rfl⟩ h1
  simp only [g3, Except.ok_bind', g4.size, g4.alpha, g4.beta]

end Imate.Flat
