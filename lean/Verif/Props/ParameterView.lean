import Verif.Spec.ParameterView
import Mathlib.Tactic.Linarith
import Mathlib.Tactic.Ring

/-!
# C85: the estimates are those at the parameters the user gave
-/

namespace Imate.Props.ParameterView

open Imate.ParameterView Imate.Spec.ParameterView
open Args hiding getOperatorParameters

variable {K : Type}

private theorem collect_ok {α : Type} {f : ℕ → Except Fault α} {g : ℕ → α} (n : ℕ) (h : ∀ i < n, f i = .ok (g i)) :
    collect f n = .ok ((List.range n).map g) := by
  induction n with
  | zero => rfl
  | succ n ih =>
    simp [collect, ih (fun i hi => h i (by omega)), h n (by omega), bind, Except.bind, List.range_succ]

private theorem collect_error {α : Type} {f : ℕ → Except Fault α} {e : Fault} (n : ℕ)
    (h : ∀ i < n, (∃ x, f i = .ok x) ∨ f i = .error e) (hn : ∃ i < n, f i = .error e) : collect f n = .error e := by
  induction n with
  | zero => obtain ⟨i, hi, -⟩ := hn; omega
  | succ n ih =>
    by_cases hp : ∃ i < n, f i = .error e
    · simp [collect, ih (fun i hi => h i (by omega)) hp, bind, Except.bind]
    · obtain ⟨i, hi, hf⟩ := hn
      have hin : i = n := by
        by_contra hne
        exact hp ⟨i, by omega, hf⟩
      subst hin
      have hall : ∀ j < i, ∃ x, f j = .ok x := fun j hj =>
        (h j (by omega)).resolve_right fun he => hp ⟨j, hj, he⟩
      have hc : ∃ xs, collect f i = .ok xs := by
        clear ih hp h hf hi
        induction i with
        | zero => exact ⟨[], rfl⟩
        | succ i ih =>
          obtain ⟨xs, hx⟩ := ih (fun j hj => hall j (by omega))
          obtain ⟨x, hx'⟩ := hall i (by omega)
          exact ⟨xs ++ [x], by simp [collect, hx, hx', bind, Except.bind]⟩
      obtain ⟨xs, hc⟩ := hc
      simp [collect, hc, hf, bind, Except.bind]

private theorem flatten_range {n m : ℕ} (x : ℕ → K) :
    ((List.range n).map fun j => (List.range m).map fun k => x (j * m + k)).flatten = (List.range (n * m)).map x := by
  induction n with
  | zero => simp
  | succ n ih =>
    rw [List.range_succ, List.map_append, List.flatten_append, ih, Nat.succ_mul, List.range_add]
    simp [Function.comp_def]

private theorem found {np size : ℕ} (h0 : 0 < np) (hle : np ≤ size) (hd : np ∣ size) :
    findNumInquiries np size = .ok (size / np) ∧ size / np * np = size := by
  refine ⟨?_, Nat.div_mul_cancel hd⟩
  simp [findNumInquiries, h0.ne', Nat.not_lt.2 hle, Nat.mod_eq_zero_of_dvd hd]

/-- What is read through a pointer is cut into batches. -/
private theorem read_batches {np size : ℕ} (h0 : 0 < np) (hd : np ∣ size) (p : Pointer K) (xs : List K)
    (hl : xs.length = size) (h : ∀ i (hi : i < xs.length), p.read i = .ok xs[i]) :
    ∃ r, collect (inquiry np p) (size / np) = .ok r ∧ Batches np xs r := by
  rcases xs with _ | ⟨x0, xs'⟩
  · simp only [List.length_nil] at hl
    subst hl
    exact ⟨[], by simp [collect], by simp [Batches]⟩
  generalize hxs : x0 :: xs' = xs at *
  let x : ℕ → K := fun i => xs.getD i x0
  have hx : ∀ i < size, p.read i = .ok (x i) := by
    intro i hi
    have hi' : i < xs.length := by omega
    rw [h i hi']
    simp [x, List.getD, List.getElem?_eq_getElem hi']
  have hmul := Nat.div_mul_cancel hd
  have hin : ∀ j < size / np, inquiry np p j = .ok ((List.range np).map fun k => x (j * np + k)) := by
    intro j hj
    refine collect_ok np fun k hk => hx _ ?_
    have : (j + 1) * np ≤ size / np * np := Nat.mul_le_mul_right _ hj
    rw [Nat.succ_mul] at this
    omega
  refine ⟨_, collect_ok _ hin, ?_, ?_⟩
  · rw [flatten_range, hmul, ← hl]
    apply List.ext_getElem (by simp)
    intro i h1 h2
    simp [x, List.getD, List.getElem?_eq_getElem h2]
  · intro b hb
    simp only [List.mem_map] at hb
    obtain ⟨j, -, rfl⟩ := hb
    simp

private theorem array_inquiries {d : DType} {np : ℕ} (v : View K) (h0 : 0 < np) (hle : np ≤ v.size) (hd : np ∣ v.size)
    (ht : v.dtype = d) (hw : v.writeable = true) :
    inquiries d np (.array v) = ofNative (collect (inquiry np (.to v.base v.offset)) (v.size / np)) := by
  simp [inquiries, getOperatorParameters, (found h0 hle hd).1, point, ht, hw, bind, Except.bind]

/-- **C85 (partial).**  For a number, a list, or a writable array of the type of the operator that is contiguous, the
estimates are computed at the numbers given, in their order.  (The full claim is for all arrays.) -/
theorem given_parameters_partial {d : DType} {np : ℕ} {g : Given K} {xs : List K} (hg : Values g xs) (h0 : 0 < np)
    (hle : np ≤ xs.length) (hd : np ∣ xs.length)
    (hv : ∀ v, g = .array v → v.dtype = d ∧ v.writeable = true ∧ (v.stride = 1 ∨ v.size ≤ 1)) :
    ∃ r, inquiries d np g = .ok r ∧ Batches np xs r := by
  have main : ∀ v : View K, Entries v xs → v.dtype = d ∧ v.writeable = true ∧ (v.stride = 1 ∨ v.size ≤ 1) →
      ∃ r, inquiries d np (.array v) = .ok r ∧ Batches np xs r := by
    intro v hE hv
    obtain ⟨ht, hw, hs⟩ := hv
    obtain ⟨hl, hE⟩ := hE
    rw [array_inquiries v h0 (hl ▸ hle) (hl ▸ hd) ht hw]
    obtain ⟨r, h1, h2⟩ := read_batches h0 (hl ▸ hd) (.to v.base v.offset) xs hl (by
      intro i hi
      obtain ⟨a, ha, hb⟩ := hE i hi
      have : a = v.offset + i := by
        rcases hs with hs | hs
        · rw [hs] at ha; omega
        · have : i = 0 := by omega
          subst this
          simp at ha
          omega
      subst this
      simp [Pointer.read, hb])
    exact ⟨r, by rw [h1]; rfl, h2⟩
  cases g with
  | none => simp only [Values] at hg; subst hg; simp at hle; omega
  | scalar t =>
    simp only [Values] at hg
    subst hg
    simp only [List.length_singleton] at hle hd
    obtain ⟨r, h1, h2⟩ := read_batches h0 hd (.to #[t] 0) [t] rfl (by
      intro i hi
      have : i = 0 := by simpa using hi
      subst this
      rfl)
    refine ⟨r, ?_, h2⟩
    simp [inquiries, getOperatorParameters, (found h0 hle hd).1, point, bind, Except.bind, h1, ofNative]
  | list ys =>
    simp only [Values] at hg
    subst hg
    obtain ⟨r, h1, h2⟩ := main ⟨d, true, xs.length, 0, 1, xs.toArray⟩
      ⟨rfl, fun i hi => ⟨i, by simp, by simp [List.getElem?_eq_getElem hi]⟩⟩ ⟨rfl, rfl, .inl rfl⟩
    exact ⟨r, h1, h2⟩
  | array v => exact main v hg (hv v rfl)
  | otherArray => exact hg.elim
  | other => exact hg.elim

/-- An operator without parameters has one estimate, whatever numbers are given in an accepted form. -/
theorem no_parameters_needed (d : DType) (g : Given K) (hg : ∃ xs, Values g xs)
    (hv : ∀ v, g = .array v → v.dtype = d ∧ v.writeable = true) : inquiries d 0 g = .ok [[]] := by
  obtain ⟨xs, hg⟩ := hg
  cases g with
  | array v =>
    obtain ⟨ht, hw⟩ := hv v rfl
    simp [inquiries, getOperatorParameters, findNumInquiries, point, ht, hw, bind, Except.bind, collect, inquiry, ofNative]
  | otherArray => exact hg.elim
  | other => exact hg.elim
  | _ => simp [inquiries, getOperatorParameters, findNumInquiries, point, bind, Except.bind, collect, inquiry, ofNative]

/-- Numbers that do not make whole batches are refused. -/
theorem incomplete_refused {d : DType} {np : ℕ} {g : Given K} {xs : List K} (hg : Values g xs) (h0 : 0 < np)
    (h : xs.length < np ∨ ¬ np ∣ xs.length) : inquiries d np g = .error .valueError := by
  have key : findNumInquiries np xs.length = .error .valueError := by
    unfold findNumInquiries
    rw [if_neg h0.ne']
    split
    · rfl
    · rename_i h1
      rw [if_pos fun h2 => (h.resolve_left h1) (Nat.dvd_of_mod_eq_zero h2)]
  cases g with
  | array v => simp [inquiries, getOperatorParameters, ← hg.1, key, bind, Except.bind]
  | otherArray => exact hg.elim
  | other => exact hg.elim
  | _ =>
    simp only [Values] at hg
    subst hg
    simp [inquiries, getOperatorParameters, bind, Except.bind] at key ⊢
    simp [key]

/-! ### Negations -/

/-- What any accepted array gives: the numbers that lie in memory after its first entry, whatever its stride. -/
theorem memory_read {d : DType} {np : ℕ} (v : View K) (h0 : 0 < np) (hle : np ≤ v.size) (hd : np ∣ v.size)
    (ht : v.dtype = d) (hw : v.writeable = true) (hb : v.offset + v.size ≤ v.base.size) :
    ∃ r, inquiries d np (.array v) = .ok r ∧ Batches np ((v.base.toList.drop v.offset).take v.size) r := by
  rw [array_inquiries v h0 hle hd ht hw]
  obtain ⟨r, h1, h2⟩ := read_batches h0 hd (.to v.base v.offset) ((v.base.toList.drop v.offset).take v.size)
    (by simp; omega) (by
      intro i hi
      simp only [List.length_take, List.length_drop, Array.length_toList] at hi
      have : v.offset + i < v.base.size := by omega
      simp [Pointer.read, Array.getElem?_eq_getElem this])
  exact ⟨r, by rw [h1]; rfl, h2⟩

/-- The estimates of every view such as `t[::2]` are computed at other numbers, if only the number in memory after the
first entry is not the second entry.  No exception is raised. -/
theorem strided_wrong {d : DType} {np : ℕ} (v : View K) {xs : List K} (hx : Entries v xs) (h0 : 0 < np)
    (hle : np ≤ v.size) (hd : np ∣ v.size) (ht : v.dtype = d) (hw : v.writeable = true)
    (hb : v.offset + v.size ≤ v.base.size) (h2 : 1 < v.size) (hne : v.base[v.offset + 1]? ≠ xs[1]?) :
    ∃ r, inquiries d np (.array v) = .ok r ∧ ¬ Batches np xs r := by
  obtain ⟨r, h1, h3, -⟩ := memory_read v h0 hle hd ht hw hb
  refine ⟨r, h1, fun h => hne ?_⟩
  rw [← h.1, h3]
  simp [List.getElem?_take, h2]

/-- A reversed array, `t[::-1]`, is read beyond its end. -/
theorem reversed_out_of_bounds {d : DType} {np : ℕ} (base : Array K) (h0 : 0 < np) (hle : np ≤ base.size)
    (hd : np ∣ base.size) (h2 : 1 < base.size) :
    inquiries d np (.array ⟨d, true, base.size, base.size - 1, -1, base⟩) = .error (.native .outOfBounds) := by
  rw [array_inquiries (d := d) ⟨d, true, base.size, base.size - 1, -1, base⟩ h0 hle hd rfl rfl]
  simp only
  have hread : ∀ k, (∃ x, (Pointer.to base (base.size - 1)).read k = .ok x) ∨
      (Pointer.to base (base.size - 1)).read k = .error .outOfBounds := by
    intro k
    unfold Pointer.read
    simp only
    cases base[base.size - 1 + k]? with
    | some x => exact .inl ⟨x, rfl⟩
    | none => exact .inr rfl
  have hbad : ∀ k, 0 < k → (Pointer.to base (base.size - 1)).read k = .error .outOfBounds := by
    intro k hk
    have : base[base.size - 1 + k]? = none := Array.getElem?_eq_none (by omega)
    simp [Pointer.read, this]
  have hinq : ∀ j, (∃ x, inquiry np (Pointer.to base (base.size - 1)) j = .ok x) ∨
      inquiry np (Pointer.to base (base.size - 1)) j = .error .outOfBounds := by
    intro j
    by_cases he : ∃ k < np, (Pointer.to base (base.size - 1)).read (j * np + k) = .error .outOfBounds
    · exact .inr (collect_error np (fun k _ => hread _) he)
    · left
      have hall : ∀ k < np, ∃ x, (Pointer.to base (base.size - 1)).read (j * np + k) = .ok x := fun k hk =>
        (hread _).resolve_right fun h => he ⟨k, hk, h⟩
      obtain ⟨y, -⟩ := hall 0 h0
      refine ⟨_, collect_ok (g := fun k => if h : k < np then (hall k h).choose else y) np fun k hk => ?_⟩
      rw [dif_pos hk]
      exact (hall k hk).choose_spec
  have hmul := Nat.div_mul_cancel hd
  have hpos : 0 < base.size / np := Nat.div_pos hle h0
  rw [collect_error _ (fun j _ => hinq j) ?_]
  · rfl
  refine ⟨base.size / np - 1, by omega, collect_error np (fun k _ => hread _) ⟨np - 1, by omega, hbad _ ?_⟩⟩
  have : (base.size / np - 1) * np + np = base.size := by
    rw [← Nat.succ_mul, Nat.succ_eq_add_one, Nat.sub_add_cancel hpos, hmul]
  omega

/-- A read-only array of the right type is refused. -/
theorem read_only_refused {d : DType} {np : ℕ} (v : View K) (h0 : 0 < np) (hle : np ≤ v.size) (hd : np ∣ v.size)
    (ht : v.dtype = d) (hw : v.writeable = false) : inquiries d np (.array v) = .error .valueError := by
  simp [inquiries, getOperatorParameters, (found h0 hle hd).1, point, ht, hw, bind, Except.bind]

/-- An array of another type, such as integers for an operator of doubles, is refused, so that no estimate is computed at
a number the user did not give. -/
theorem other_type_refused {d : DType} {np : ℕ} (v : View K) (h0 : 0 < np) (hle : np ≤ v.size) (hd : np ∣ v.size)
    (ht : v.dtype ≠ d) : inquiries d np (.array v) = .error .valueError := by
  simp [inquiries, getOperatorParameters, (found h0 hle hd).1, point, ht, bind, Except.bind]

/-! ### The table of samples -/

private theorem write_cases (b w i : ℕ) : (∃ x, write b w i = .ok x) ∨ write b w i = .error .outOfBounds := by
  unfold write
  split
  · exact .inl ⟨(), rfl⟩
  · exact .inr rfl

private theorem writes (b w n : ℕ) (hn : 0 < n) :
    (b < n * w → collect (fun i => write b w i) n = .error .outOfBounds) ∧
    (n * w ≤ b → ∃ x, collect (fun i => write b w i) n = .ok x) := by
  constructor
  · intro h
    refine collect_error n (fun i _ => write_cases b w i) ⟨n - 1, by omega, ?_⟩
    unfold write
    rw [if_neg]
    rw [Nat.sub_add_cancel hn]
    omega
  · intro h
    refine ⟨_, collect_ok (g := fun _ => ()) n fun i hi => ?_⟩
    unfold write
    rw [if_pos]
    exact (Nat.mul_le_mul_right w hi).trans h

private theorem fill (w : Platform) (d : DType) (s q rows row : ℕ) (hs : 0 < s) (hq : 0 < q)
    (ha : allocated w d s q = (rows, row)) :
    (s * w.pointer ≤ rows ∧ q * w.number d ≤ row → fillTable w d s q = .ok ()) ∧
    (¬ (s * w.pointer ≤ rows ∧ q * w.number d ≤ row) → fillTable w d s q = .error .outOfBounds) := by
  have hrow := writes row (w.number d) q hq
  constructor
  · rintro ⟨h1, h2⟩
    obtain ⟨x, hx⟩ := hrow.2 h2
    have : collect (fun i => do
        write rows w.pointer i
        let _ ← collect (fun j => write row (w.number d) j) q
        .ok ()) s = .ok ((List.range s).map fun _ => ()) := by
      refine collect_ok s fun i hi => ?_
      have : write rows w.pointer i = .ok () := by
        unfold write
        rw [if_pos ((Nat.mul_le_mul_right _ hi).trans h1)]
      simp [this, hx, bind, Except.bind]
    simp only [fillTable, ha]
    rw [this]
    rfl
  · intro h
    have hc : ∀ i, ((∃ x, (do
        write rows w.pointer i
        let _ ← collect (fun j => write row (w.number d) j) q
        .ok () : Except Fault Unit) = .ok x) ∨ (do
        write rows w.pointer i
        let _ ← collect (fun j => write row (w.number d) j) q
        .ok () : Except Fault Unit) = .error .outOfBounds) ∧
        (row < q * w.number d ∨ write rows w.pointer i = .error .outOfBounds → (do
        write rows w.pointer i
        let _ ← collect (fun j => write row (w.number d) j) q
        .ok () : Except Fault Unit) = .error .outOfBounds) := by
      intro i
      rcases write_cases rows w.pointer i with ⟨x, hx⟩ | hx <;>
        rcases Nat.lt_or_ge row (q * w.number d) with h' | h'
      · simp [hx, hrow.1 h', bind, Except.bind]
      · obtain ⟨y, hy⟩ := hrow.2 h'
        simp [hx, hy, bind, Except.bind, Nat.not_lt.2 h']
      · simp [hx, bind, Except.bind]
      · simp [hx, bind, Except.bind]
    have : collect (fun i => do
        write rows w.pointer i
        let _ ← collect (fun j => write row (w.number d) j) q
        .ok ()) s = .error .outOfBounds := by
      refine collect_error s (fun i _ => (hc i).1) ⟨s - 1, by omega, (hc _).2 ?_⟩
      by_cases h1 : s * w.pointer ≤ rows
      · exact .inl (by
          by_contra h2
          exact h ⟨h1, by omega⟩)
      · right
        unfold write
        rw [if_neg]
        rw [Nat.sub_add_cancel hs]
        exact h1
    simp only [fillTable, ha]
    rw [this]
    rfl

/-- The table of samples fits the memory allocated for it in single and extended precision, on every platform. -/
theorem table_fits (w : Platform) {d : DType} (hd : d ≠ .float64) {s q : ℕ} (hs : 0 < s) (hq : 0 < q) :
    fillTable w d s q = .ok () := by
  refine (fill w d s q (w.pointer * s) (w.number d * q) hs hq ?_).1 ⟨(Nat.mul_comm _ _).le, (Nat.mul_comm _ _).le⟩
  cases d <;> first | rfl | exact absurd rfl hd

/-- In double precision it fits exactly on the platforms on which a pointer is as long as a double. -/
theorem double_table_partial (w : Platform) {s q : ℕ} (hs : 0 < s) (hq : 0 < q) :
    (w.pointer = w.double → fillTable w .float64 s q = .ok ()) ∧
    (w.pointer ≠ w.double → fillTable w .float64 s q = .error .outOfBounds) := by
  have hf := fill w .float64 s q (w.double * s) (w.pointer * q) hs hq rfl
  have hn : w.number .float64 = w.double := rfl
  rw [hn] at hf
  constructor
  · intro h
    exact hf.1 ⟨by rw [h, Nat.mul_comm], by rw [h, Nat.mul_comm]⟩
  · intro h
    refine hf.2 fun ⟨h1, h2⟩ => h ?_
    rw [Nat.mul_comm] at h1 h2
    exact Nat.le_antisymm (Nat.le_of_mul_le_mul_right h1 hs) (Nat.le_of_mul_le_mul_right h2 hq)

/-! ### The hypotheses are met -/

/-- `t = numpy.array([1.0, 5.0, 2.0, 7.0])` and `t[::2]`. -/
private def every2 : View ℚ := ⟨.float64, true, 2, 0, 2, #[1, 5, 2, 7]⟩

private theorem every2_entries : Entries every2 [1, 2] := by
  refine ⟨rfl, fun i hi => ?_⟩
  match i, hi with
  | 0, _ => exact ⟨0, rfl, rfl⟩
  | 1, _ => exact ⟨2, rfl, rfl⟩

example : ∃ r, inquiries .float64 1 (.array every2) = .ok r ∧ ¬ Batches 1 [1, 2] r :=
  strided_wrong every2 every2_entries (by decide) (by decide) (by decide) rfl rfl (by decide) (by decide)
    (by decide +kernel)

example : inquiries .float32 1 (.array every2) = .error .valueError :=
  other_type_refused every2 (by decide) (by decide) (by decide) (by decide)

/-- The estimates are those at 1 and 5. -/
example : inquiries .float64 1 (.array every2) = .ok [[1], [5]] := by decide +kernel

example : inquiries (K := ℚ) .float64 1 (.list [1, 2, 3]) = .ok [[1], [2], [3]] := by decide +kernel

example := given_parameters_partial (K := ℚ) (d := .float64) (g := .list [1, 2, 3, 4]) (np := 2) rfl (by decide)
  (by decide) (by decide) (by intro v hv; cases hv)

example := reversed_out_of_bounds (K := ℚ) (d := .float32) (np := 1) #[1, 2, 3] (by decide) (by decide) (by decide)
  (by decide)

/-- A platform with 32-bit pointers, such as WebAssembly. -/
example : fillTable ⟨4, 4, 8, 16⟩ .float64 50 1 = .error .outOfBounds :=
  (double_table_partial _ (by decide) (by decide)).2 (by decide)

/-- A platform with 64-bit pointers. -/
example : fillTable ⟨8, 4, 8, 16⟩ .float64 50 3 = .ok () :=
  (double_table_partial _ (by decide) (by decide)).1 rfl

end Imate.Props.ParameterView
