/-!
# Interleavings

`Interleaving ps es`: the list `es` is a possible order of execution of the programs `ps`, one per
thread; at every moment any thread that has not finished may execute its next action.
-/

namespace Imate.Spec

inductive Interleaving {α : Type _} : List (List α) → List α → Prop where
  | done {ps : List (List α)} : (∀ p ∈ ps, p = []) → Interleaving ps []
  | step {ps : List (List α)} {t : Nat} {e : α} {rest es : List α} :
      ps[t]? = some (e :: rest) → Interleaving (ps.set t rest) es → Interleaving ps (e :: es)

/-- Every action of every thread is eventually executed. -/
theorem Interleaving.mem {α : Type _} {ps : List (List α)} {es : List α}
    (h : Interleaving ps es) : ∀ p ∈ ps, ∀ e ∈ p, e ∈ es := by
  induction h with
  | done h => intro p hp e he; rw [h p hp] at he; simp at he
  | @step ps t e rest es ht _ ih =>
    intro p hp x hx
    obtain ⟨u, hu, rfl⟩ := List.mem_iff_getElem.1 hp
    by_cases htu : t = u
    · subst htu
      rw [List.getElem?_eq_getElem hu, Option.some.injEq] at ht
      rw [ht] at hx
      rcases List.mem_cons.1 hx with rfl | hx
      · exact List.mem_cons_self
      · exact List.mem_cons_of_mem _ (ih rest (List.mem_of_getElem (by
          rw [List.getElem_set_self (by simpa using hu)])) x hx)
    · refine List.mem_cons_of_mem _ (ih ps[u] ?_ x hx)
      exact List.mem_of_getElem (i := u) (h := by simpa using hu) (by
        rw [List.getElem_set_ne htu])

/-- Only actions of the threads are executed. -/
theorem Interleaving.mem_inv {α : Type _} {ps : List (List α)} {es : List α}
    (h : Interleaving ps es) : ∀ e ∈ es, ∃ p ∈ ps, e ∈ p := by
  induction h with
  | done _ => intro e he; simp at he
  | @step ps t e rest es ht _ ih =>
    intro x hx
    have hmem : (e :: rest) ∈ ps := List.mem_of_getElem? ht
    rcases List.mem_cons.1 hx with rfl | hx
    · exact ⟨_, hmem, List.mem_cons_self⟩
    · obtain ⟨p, hp, hxp⟩ := ih x hx
      rcases List.mem_or_eq_of_mem_set hp with hp | rfl
      · exact ⟨p, hp, hxp⟩
      · exact ⟨_, hmem, List.mem_cons_of_mem _ hxp⟩

end Imate.Spec
