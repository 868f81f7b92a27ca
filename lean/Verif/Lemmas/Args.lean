import Verif.Spec.Args
import Verif.Lemmas.Mem
import Mathlib.Tactic.Linarith
import Mathlib.Tactic.SplitIfs
import Mathlib.Tactic.NormNum

/-! # Lemmas on the argument checks -/

namespace Imate.Args

theorem bind_ok {α β : Type} {x : Except PyExc α} {f : α → Except PyExc β} {y : β} :
    (x >>= f) = .ok y ↔ ∃ a, x = .ok a ∧ f a = .ok y := by
  cases x with
  | ok a =>
    constructor
    · intro h; exact ⟨a, rfl, h⟩
    · rintro ⟨b, hb, h⟩; cases hb; exact h
  | error e =>
    constructor
    · intro h; cases h
    · rintro ⟨b, hb, h⟩; cases hb

theorem bind_error {α β : Type} {x : Except PyExc α} {f : α → Except PyExc β} {e : PyExc} :
    (x >>= f) = .error e ↔ x = .error e ∨ ∃ a, x = .ok a ∧ f a = .error e := by
  cases x with
  | ok a =>
    constructor
    · intro h; exact .inr ⟨a, rfl, h⟩
    · rintro (h | ⟨b, hb, h⟩)
      · cases h
      · cases hb; exact h
  | error e' =>
    constructor
    · intro h; cases h; exact .inl rfl
    · rintro (h | ⟨b, hb, h⟩)
      · cases h; rfl
      · cases hb

theorem checkBool_ok {v : PyVal} : checkBool v = .ok () ↔ ∃ b, v = .bool b := by
  cases v <;> simp [checkBool, PyVal.isscalar, PyVal.isBool]

theorem isInteger_isInt {v : PyVal} (h : v.isInteger = true) : IsInt v v.intValue := by
  cases v with
  | bool b => cases b <;> simp [IsInt, PyVal.intValue]
  | int z => exact .inl rfl
  | npInt z => exact .inr (.inl rfl)
  | _ => simp [PyVal.isInteger] at h

theorem isInt_isInteger {v : PyVal} {z : ℤ} (h : IsInt v z) : v.isInteger = true ∧ v.intValue = z := by
  rcases h with rfl | rfl | ⟨rfl, rfl⟩ | ⟨rfl, rfl⟩ <;> simp [PyVal.isInteger, PyVal.intValue]

theorem num_isReal {v : PyVal} {x : Num} (h : v.num = some x) : IsReal v x := by
  cases v with
  | bool b => cases b <;> simp_all [IsReal, IsInt, PyVal.num]
  | int z =>
    cases h
    exact .inl ⟨z, .inl rfl, rfl⟩
  | npInt z =>
    cases h
    exact .inl ⟨z, .inr (.inl rfl), rfl⟩
  | float y => cases h; exact .inr (.inl rfl)
  | npFloat y => cases h; exact .inr (.inr (.inl rfl))
  | npBool b => cases h; exact .inr (.inr (.inr ⟨b, rfl, rfl⟩))
  | _ => simp [PyVal.num] at h

theorem isReal_num {v : PyVal} {x : Num} (h : IsReal v x) : v.num = some x := by
  rcases h with ⟨z, h, rfl⟩ | rfl | rfl | ⟨b, rfl, rfl⟩
  · rcases h with rfl | rfl | ⟨rfl, rfl⟩ | ⟨rfl, rfl⟩ <;> simp [PyVal.num]
  all_goals rfl

theorem checkInteger_ok {e : PyExc} {b : ℤ} {v : PyVal} (h : checkInteger e b v = .ok ()) :
    v.isInteger = true ∧ b ≤ v.intValue := by
  unfold checkInteger at h
  cases v <;> simp_all [PyVal.isscalar, PyVal.isInteger] <;> split_ifs at h <;> simp_all

theorem toCInt_ok {n : ℕ} {v : PyVal} {z : ℤ} (h : toCInt n v = .ok z) :
    IsInt v z ∧ -2 ^ (n - 1) ≤ z ∧ z < 2 ^ (n - 1) := by
  unfold toCInt at h
  split_ifs at h with h1 h2
  cases h
  exact ⟨isInteger_isInt h1, h2⟩

theorem toCFloat_ok {v : PyVal} {x : Num} (h : toCFloat v = .ok x) : IsReal v x := by
  unfold toCFloat at h
  split at h
  · cases h; exact num_isReal ‹_›
  · cases h

theorem checkTolerance_ok {v w : PyVal} (h : checkTolerance v = .ok w) :
    (v = .none ∧ w = .float (.fin 0)) ∨
      (v = w ∧ ∃ x, v.num = some x ∧ lt x (.fin 0) = false ∧ v.isIntOrFloat = true) := by
  cases v <;> simp_all [checkTolerance, PyVal.isscalar, PyVal.isIntOrFloat, pyLt, PyVal.num,
    Except.ok_bind']
  all_goals first
    | exact h.symm
    | (split_ifs at h <;> simp_all)

theorem checkConfidence_ok {v : PyVal} {x : Num} (h : checkConfidence v = .ok x) :
    v.num = some x ∧ outsideUnit x = false := by
  cases v <;> simp_all [checkConfidence, PyVal.isscalar, PyVal.isIntOrFloat, PyVal.num] <;>
    split_ifs at h <;> simp_all

theorem checkOutlierLevel_ok {v : PyVal} {x : Num} (h : checkOutlierLevel v = .ok x) :
    v.num = some x ∧ outsideUnit x = false := by
  cases v <;> simp_all [checkOutlierLevel, PyVal.isscalar, PyVal.isIntegerOrFloat, PyVal.num] <;>
    split_ifs at h <;> simp_all

theorem checkLanczosTol_ok {v : PyVal} (h : checkLanczosTol v = .ok ()) :
    v = .none ∨ ∃ x, v.num = some x ∧ lt x (.fin 0) = false := by
  cases v <;> simp_all [checkLanczosTol, PyVal.isscalar, PyVal.isIntegerOrFloat, pyLt, PyVal.num,
    Except.ok_bind'] <;> split_ifs at h <;> simp_all

theorem checkOrthogonalize_ok {v d : PyVal} (h : checkOrthogonalize v d = .ok ()) :
    v.isInteger = true ∧ v.intValue ≤ d.intValue := by
  unfold checkOrthogonalize at h
  cases v <;> simp_all [PyVal.isscalar, PyVal.isInteger] <;> split_ifs at h <;> simp_all

theorem checkSeed_ok {v : PyVal} (h : checkSeed v = .ok ()) : v = .none ∨ v.isInteger = true := by
  unfold checkSeed at h
  cases v <;> simp_all [PyVal.isscalar, PyVal.isInteger]

theorem raiseIf_ok {c : Bool} {e : PyExc} : raiseIf c e = .ok () ↔ c = false := by
  unfold raiseIf
  cases c <;> simp

end Imate.Args
