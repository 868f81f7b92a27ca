import Verif.Model.LocateCuda
import Verif.Spec.LocateCuda
import Mathlib.Tactic.NormNum
import Mathlib.Tactic.IntervalCases
import Mathlib.Data.List.Basic

/-! Texts that contain numbers. -/

namespace Imate.LocateCuda

open Imate.Spec

theorem splitBy_none {p : Char → Bool} {a : Text} (h : ∀ c ∈ a, p c = false) : splitBy p a = [a] := by
  induction a with
  | nil => rfl
  | cons x xs ih =>
    have := ih (fun c hc => h c (by simp [hc]))
    simp [splitBy, h x (by simp), this]

theorem splitBy_append {p : Char → Bool} {a : Text} (h : ∀ c ∈ a, p c = false) (c : Char) (hc : p c = true) (b : Text) :
    splitBy p (a ++ c :: b) = a :: splitBy p b := by
  induction a with
  | nil => simp [splitBy, hc]
  | cons x xs ih =>
    have := ih (fun c hc => h c (by simp [hc]))
    simp [splitBy, h x (by simp), this]

theorem split_none {c : Char} {a : Text} (h : c ∉ a) : split c a = [a] :=
  splitBy_none (fun x hx => by
    have : x ≠ c := fun e => h (e ▸ hx)
    simpa using this)

theorem split_append {c : Char} {a : Text} (h : c ∉ a) (b : Text) : split c (a ++ c :: b) = a :: split c b :=
  splitBy_append (fun x hx => by
    have : x ≠ c := fun e => h (e ▸ hx)
    simpa using this) c (by simp) b

theorem lines_line {l : Text} (h : '\n' ∉ l) (post : Text) : lines (l ++ '\n' :: post) = (l ++ ['\n']) :: lines post := by
  induction l with
  | nil => simp [lines]
  | cons x xs ih =>
    have hx : x ≠ '\n' := fun e => h (by simp [e])
    have := ih (fun hh => h (by simp [hh]))
    simp [lines, hx, this]

theorem lines_append {pre : Text} (h : pre = [] ∨ pre.getLast? = some '\n') (b : Text) :
    lines (pre ++ b) = lines pre ++ lines b := by
  induction pre with
  | nil => rfl
  | cons x xs ih =>
    have hl : (x :: xs).getLast? = some '\n' := by
      rcases h with h | h
      · simp at h
      · exact h
    by_cases hx : x = '\n'
    · subst hx
      have : xs = [] ∨ xs.getLast? = some '\n' := by
        cases xs with
        | nil => exact Or.inl rfl
        | cons y ys => exact Or.inr (by simpa [List.getLast?_cons_cons] using hl)
      simp [lines, ih this]
    · have hne : xs ≠ [] := by
        rintro rfl
        simp at hl
        exact hx hl
      obtain ⟨y, ys, rfl⟩ := List.exists_cons_of_ne_nil hne
      have hi := ih (Or.inr (by simpa [List.getLast?_cons_cons] using hl))
      have hnn : ∀ z zs, lines (z :: zs) ≠ [] := by
        intro z zs
        unfold lines
        split
        · simp
        · split <;> simp
      obtain ⟨l, ls, e⟩ := List.exists_cons_of_ne_nil (hnn y ys)
      rw [List.cons_append, lines, if_neg hx, hi, e, lines, if_neg hx, e]
      rfl

theorem digitChar_facts (d : ℕ) (h : d < 10) : (Nat.digitChar d).isDigit = true ∧ (Nat.digitChar d).toNat - 48 = d ∧
    isSpace (Nat.digitChar d) = false ∧ Nat.digitChar d ≠ '.' ∧ Nat.digitChar d ≠ ' ' ∧ Nat.digitChar d ≠ '\n' := by
  interval_cases d <;> decide

/-- A text of digits. -/
def Digits (t : Text) : Prop := ∃ ds : List ℕ, (∀ d ∈ ds, d < 10) ∧ t = ds.reverse.map Nat.digitChar

theorem Digits.mem {t : Text} (h : Digits t) {c : Char} (hc : c ∈ t) : ∃ d < 10, c = Nat.digitChar d := by
  obtain ⟨ds, h1, rfl⟩ := h
  obtain ⟨d, hd, rfl⟩ := List.mem_map.1 hc
  exact ⟨d, h1 d (by simpa using hd), rfl⟩

theorem Digits.not_mem {t : Text} (h : Digits t) : '.' ∉ t ∧ ' ' ∉ t ∧ '\n' ∉ t := by
  refine ⟨fun hc => ?_, fun hc => ?_, fun hc => ?_⟩ <;> obtain ⟨d, hd, e⟩ := h.mem hc
  · exact (digitChar_facts d hd).2.2.2.1 e.symm
  · exact (digitChar_facts d hd).2.2.2.2.1 e.symm
  · exact (digitChar_facts d hd).2.2.2.2.2 e.symm

theorem Digits.all {t : Text} (h : Digits t) : t.all (·.isDigit) = true := by
  rw [List.all_eq_true]
  intro c hc
  obtain ⟨d, hd, rfl⟩ := h.mem hc
  exact (digitChar_facts d hd).1

theorem Digits.noSpace {t : Text} (h : Digits t) {c : Char} (hc : c ∈ t) : isSpace c = false := by
  obtain ⟨d, hd, rfl⟩ := h.mem hc
  exact (digitChar_facts d hd).2.2.1

theorem dropWhile_id {t : Text} (h : ∀ c ∈ t, isSpace c = false) : t.dropWhile isSpace = t := by
  cases t with
  | nil => rfl
  | cons x xs => rw [List.dropWhile_cons_of_neg]; simp [h x (by simp)]

theorem strip_digits {t : Text} (h : ∀ c ∈ t, isSpace c = false) (s : Text) (hs : ∀ c ∈ s, isSpace c = true) :
    strip (t ++ s) = t := by
  unfold strip
  have h1 : ∀ r : Text, (∀ c ∈ r, isSpace c = true) → ∀ u, (r ++ u).dropWhile isSpace = u.dropWhile isSpace := by
    intro r hr u
    induction r with
    | nil => rfl
    | cons x xs ih =>
      rw [List.cons_append, List.dropWhile_cons_of_pos (hr x (by simp))]
      exact ih (fun c hc => hr c (by simp [hc]))
  have h2 : (t ++ s).dropWhile isSpace = if t = [] then [] else t ++ s := by
    cases t with
    | nil =>
      have := h1 s hs []
      simpa using this
    | cons x xs =>
      rw [List.cons_append, List.dropWhile_cons_of_neg (by simp [h x (by simp)])]
      simp
  rw [h2]
  by_cases ht : t = []
  · simp [ht]
  · rw [if_neg ht, List.reverse_append, h1 s.reverse (fun c hc => hs c (by simpa using hc)),
      dropWhile_id (fun c hc => h c (by simpa using hc)), List.reverse_reverse]

theorem foldl_digits (ds : List ℕ) (h : ∀ d ∈ ds, d < 10) :
    (ds.reverse.map Nat.digitChar).foldl (fun a c => 10 * a + (c.toNat - 48)) 0 = Nat.ofDigits 10 ds := by
  induction ds with
  | nil => rfl
  | cons d ds ih =>
    rw [List.reverse_cons, List.map_append, List.foldl_append, ih (fun x hx => h x (by simp [hx]))]
    simp only [List.map_cons, List.map_nil, List.foldl_cons, List.foldl_nil]
    rw [(digitChar_facts d (h d (by simp))).2.1, Nat.ofDigits_cons]
    omega

/-- `int` of digits, followed by white space or not. -/
theorem int_digits {ds : List ℕ} (h : ∀ d ∈ ds, d < 10) (hne : ds ≠ []) (s : Text) (hs : ∀ c ∈ s, isSpace c = true) :
    int (ds.reverse.map Nat.digitChar ++ s) = .ok (Nat.ofDigits 10 ds) := by
  have hd : Digits (ds.reverse.map Nat.digitChar) := ⟨ds, h, rfl⟩
  unfold int
  dsimp only
  rw [strip_digits (fun c hc => hd.noSpace hc) s hs, if_pos ⟨by simpa using hne, hd.all⟩, foldl_digits ds h]

/-- the digits of a numeral -/
theorem decimal_eq (n : ℕ) : ∃ ds : List ℕ, (∀ d ∈ ds, d < 10) ∧ ds ≠ [] ∧ decimal n = ds.reverse.map Nat.digitChar ∧
    Nat.ofDigits 10 ds = n := by
  unfold decimal
  by_cases h : n = 0
  · subst h
    exact ⟨[0], by simp, by simp, by simp [Nat.digitChar], by simp⟩
  · rw [if_neg h]
    exact ⟨Nat.digits 10 n, fun d hd => Nat.digits_lt_base (by norm_num) hd, Nat.digits_ne_nil_iff_ne_zero.2 h, rfl,
      Nat.ofDigits_digits 10 n⟩

theorem decimal_digits (n : ℕ) : Digits (decimal n) := by
  obtain ⟨ds, h, -, e, -⟩ := decimal_eq n
  exact ⟨ds, h, e⟩

theorem int_decimal (n : ℕ) (s : Text) (hs : ∀ c ∈ s, isSpace c = true) : int (decimal n ++ s) = .ok n := by
  obtain ⟨ds, h, h1, e, e2⟩ := decimal_eq n
  rw [e, int_digits h h1 s hs, e2]

theorem words_word {w : Text} (hw : ∀ c ∈ w, isSpace c = false) (hne : w ≠ []) (s : Char) (hs : isSpace s = true)
    (rest : Text) : words (w ++ s :: rest) = w :: words rest := by
  unfold words
  rw [splitBy_append hw s hs, List.filter_cons_of_pos (by simpa using hne)]

theorem allButLast_append (A B : Text) {k : ℕ} (h : B.length = k) : allButLast k (A ++ B) = A := by
  unfold allButLast
  rw [List.length_append, h, Nat.add_sub_cancel, List.take_left]

theorem lastChars_append (A B : Text) {k : ℕ} (h : B.length = k) : lastChars k (A ++ B) = B := by
  unfold lastChars
  rw [List.length_append, h, Nat.add_sub_cancel, List.drop_left]

end Imate.LocateCuda
