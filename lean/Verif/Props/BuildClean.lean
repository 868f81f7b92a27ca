import Verif.Spec.BuildClean
import Mathlib.Data.List.Infix
import Mathlib.Tactic.Tauto

/-!
# C82: cleaning
-/

namespace Imate.Props.BuildClean

open Imate.BuildClean Imate.Spec.BuildClean
open Imate.LocateCuda (Text)
open scoped List

theorem contains_iff (p s : Text) : contains p s = true ↔ p <:+: s := by
  induction s with
  | nil =>
    unfold contains
    rw [List.isPrefixOf_iff_prefix, List.prefix_nil, List.infix_nil]
  | cons c cs ih =>
    rw [contains, Bool.or_eq_true, List.isPrefixOf_iff_prefix, ih, List.infix_cons_iff]

theorem split_head (c : Char) (s : Text) : ∃ line, (LocateCuda.split c s).head? = some line ∧
    (line = s ∧ c ∉ line ∨ ∃ rest, s = line ++ c :: rest ∧ c ∉ line) := by
  unfold LocateCuda.split
  induction s with
  | nil => exact ⟨[], rfl, Or.inl ⟨rfl, by simp⟩⟩
  | cons x xs ih =>
    rw [LocateCuda.splitBy]
    by_cases hx : x = c
    · subst hx
      refine ⟨[], by simp, Or.inr ⟨xs, rfl, by simp⟩⟩
    · obtain ⟨line, h1, h2⟩ := ih
      simp only [hx, decide_false, Bool.false_eq_true, if_false]
      cases hs : LocateCuda.splitBy (fun x => decide (x = c)) xs with
      | nil => rw [hs] at h1; simp at h1
      | cons w ws =>
        rw [hs] at h1
        simp only [List.head?_cons, Option.some.injEq] at h1
        subst h1
        refine ⟨x :: w, rfl, ?_⟩
        have hc : ¬ c = x := fun e => hx e.symm
        rcases h2 with ⟨e, h3⟩ | ⟨rest, e, h3⟩
        · exact Or.inl ⟨by rw [e], by simp [hc, h3]⟩
        · exact Or.inr ⟨rest, by rw [e]; rfl, by simp [hc, h3]⟩

theorem first_unique {c : Char} {s l1 l2 : Text} (h1 : l1 = s ∧ c ∉ l1 ∨ ∃ rest, s = l1 ++ c :: rest ∧ c ∉ l1)
    (h2 : l2 = s ∧ c ∉ l2 ∨ ∃ rest, s = l2 ++ c :: rest ∧ c ∉ l2) : l1 = l2 := by
  have key : ∀ (l1 l2 r1 r2 : Text), l1 ++ c :: r1 = l2 ++ c :: r2 → c ∉ l1 → c ∉ l2 → l1 = l2 := by
    intro l1
    induction l1 with
    | nil =>
      intro l2 r1 r2 e _ n2
      cases l2 with
      | nil => rfl
      | cons x l2 => simp only [List.nil_append, List.cons_append, List.cons.injEq] at e; exact absurd (by simp [e.1]) n2
    | cons x l1 ih =>
      intro l2 r1 r2 e n1 n2
      cases l2 with
      | nil => simp only [List.nil_append, List.cons_append, List.cons.injEq] at e; exact absurd (by simp [e.1]) n1
      | cons y l2 =>
        simp only [List.cons_append, List.cons.injEq] at e
        rw [e.1, ih l2 r1 r2 e.2 (fun h => n1 (List.mem_cons_of_mem _ h)) (fun h => n2 (List.mem_cons_of_mem _ h))]
  rcases h1 with ⟨rfl, n1⟩ | ⟨r1, e1, n1⟩ <;> rcases h2 with ⟨e2, n2⟩ | ⟨r2, e2, n2⟩
  · exact e2.symm
  · rw [e2] at n1; simp at n1
  · rw [e2, e1] at n2; simp at n2
  · exact key _ _ _ _ (e1.symm.trans e2) n1 n2

theorem generated_iff (content : Text) : checkCythonGenerated content = true ↔ Generated content := by
  obtain ⟨line, h1, h2⟩ := split_head '\n' content
  unfold checkCythonGenerated Generated
  rw [h1]
  simp only [Option.getD_some, Bool.or_eq_true, List.isPrefixOf_iff_prefix, contains_iff]
  constructor
  · intro h; exact ⟨line, h2, h⟩
  · rintro ⟨l, h3, h4⟩
    rwa [first_unique h2 h3]

theorem mem_remove (dir name : Text) (fs : List File) (f : File) :
    f ∈ remove dir name fs ↔ f ∈ fs ∧ ¬ (f.dir = dir ∧ f.name = name) := by
  unfold remove
  rw [List.mem_filter]
  simp only [Bool.not_eq_true', Bool.and_eq_false_iff, decide_eq_false_iff_not]
  tauto

theorem distinct_sublist {a b : List File} (h : a <+ b) (hb : Distinct b) : Distinct a := List.Pairwise.sublist h hb

theorem distinct_eq {fs : List File} (hu : Distinct fs) {f g : File} (hf : f ∈ fs) (hg : g ∈ fs) (hd : f.dir = g.dir)
    (hn : f.name = g.name) : f = g := by
  induction fs with
  | nil => simp at hf
  | cons x xs ih =>
    have hx := List.pairwise_cons.1 hu
    rcases List.mem_cons.1 hf with rfl | hf <;> rcases List.mem_cons.1 hg with rfl | hg
    · rfl
    · exact absurd ⟨hd, hn⟩ (hx.1 _ hg)
    · rename_i hf'
      exact absurd ⟨hd.symm, hn.symm⟩ (hx.1 _ hf')
    · exact ih hx.2 ‹_› ‹_›

/-- An operation removes exactly the files with a property. -/
def Removes (op : List File → List File) (R : File → Prop) : Prop :=
  ∀ fs, Distinct fs → op fs <+ fs ∧ ∀ f, f ∈ op fs ↔ f ∈ fs ∧ ¬ R f

theorem Removes.comp {a b : List File → List File} {A B : File → Prop} (ha : Removes a A) (hb : Removes b B) :
    Removes (fun fs => b (a fs)) (fun f => A f ∨ B f) := by
  intro fs hu
  obtain ⟨h1, h2⟩ := ha fs hu
  obtain ⟨h3, h4⟩ := hb _ (distinct_sublist h1 hu)
  refine ⟨h3.trans h1, fun f => ?_⟩
  rw [h4, h2]
  tauto

theorem removeGenerated_removes (dir name : Text) :
    Removes (removeGenerated dir name) (fun f => f.dir = dir ∧ f.name = name ∧ Generated f.content) := by
  intro fs hu
  unfold removeGenerated
  cases hf : fs.find? (fun f => decide (f.dir = dir) && decide (f.name = name)) with
  | none =>
    refine ⟨List.Sublist.refl _, fun f => ⟨fun h => ⟨h, fun ⟨a, b, _⟩ => ?_⟩, fun h => h.1⟩⟩
    have := List.find?_eq_none.1 hf f h
    simp [a, b] at this
  | some g =>
    have hg := List.find?_some hf
    have hm := List.mem_of_find?_eq_some hf
    simp only [Bool.and_eq_true, decide_eq_true_eq] at hg
    dsimp only
    split
    · rename_i hgen
      refine ⟨List.filter_sublist, fun f => ?_⟩
      rw [mem_remove]
      constructor
      · rintro ⟨h, hn⟩; exact ⟨h, fun ⟨a, b, _⟩ => hn ⟨a, b⟩⟩
      · rintro ⟨h, hn⟩
        refine ⟨h, fun ⟨a, b⟩ => hn ⟨a, b, ?_⟩⟩
        rw [distinct_eq hu h hm (a.trans hg.1.symm) (b.trans hg.2.symm)]
        exact (generated_iff _).1 hgen
    · rename_i hgen
      refine ⟨List.Sublist.refl _, fun f => ⟨fun h => ⟨h, fun ⟨a, b, c⟩ => hgen ?_⟩, fun h => h.1⟩⟩
      rw [generated_iff]
      rwa [distinct_eq hu h hm (a.trans hg.1.symm) (b.trans hg.2.symm)] at c

theorem matchesGlob_iff (dir ext : Text) (f : File) :
    matchesGlob dir ext f = true ↔ f.dir = dir ∧ ext <:+ f.name ∧ Visible f.name := by
  unfold matchesGlob Visible
  simp only [Bool.and_eq_true, decide_eq_true_eq, List.isSuffixOf_iff_suffix, ne_eq, and_assoc]

theorem foldl_remove (dir base : Text) (libs : List File) (fs : List File) :
    libs.foldl (fun fs lib => if base.isPrefixOf lib.name then remove dir lib.name fs else fs) fs <+ fs ∧
    ∀ f, f ∈ libs.foldl (fun fs lib => if base.isPrefixOf lib.name then remove dir lib.name fs else fs) fs ↔
      f ∈ fs ∧ ¬ ∃ lib ∈ libs, base <+: lib.name ∧ f.dir = dir ∧ f.name = lib.name := by
  induction libs generalizing fs with
  | nil => exact ⟨List.Sublist.refl _, fun f => by simp⟩
  | cons l rest ih =>
    rw [List.foldl_cons]
    split
    · rename_i hp
      rw [List.isPrefixOf_iff_prefix] at hp
      obtain ⟨h1, h2⟩ := ih (remove dir l.name fs)
      refine ⟨h1.trans List.filter_sublist, fun f => ?_⟩
      rw [h2, mem_remove]
      simp only [List.mem_cons, exists_eq_or_imp, not_or, and_assoc, hp, true_and]
    · rename_i hp
      rw [List.isPrefixOf_iff_prefix] at hp
      obtain ⟨h1, h2⟩ := ih fs
      refine ⟨h1, fun f => ?_⟩
      rw [h2]
      simp only [List.mem_cons, exists_eq_or_imp, hp, false_and, false_or]

theorem removeLibraries_removes (dir base : Text) : Removes (removeLibraries dir base) (fun f => f.dir = dir ∧ base <+: f.name ∧
    Visible f.name ∧ (".so".toList <:+ f.name ∨ ".dll".toList <:+ f.name ∨ ".dylib".toList <:+ f.name)) := by
  intro fs _
  obtain ⟨h1, h2⟩ := foldl_remove dir base (fs.filter (matchesGlob dir ".so".toList) ++
    fs.filter (matchesGlob dir ".dll".toList) ++ fs.filter (matchesGlob dir ".dylib".toList)) fs
  refine ⟨h1, fun f => ?_⟩
  unfold removeLibraries
  rw [h2]
  refine and_congr_right fun hf => not_congr ⟨?_, ?_⟩
  · rintro ⟨lib, hl, hp, hd, hn⟩
    simp only [List.mem_append, List.mem_filter, matchesGlob_iff] at hl
    rw [← hn] at hl hp
    tauto
  · rintro ⟨hd, hp, hv, he⟩
    refine ⟨f, ?_, hp, hd, rfl⟩
    simp only [List.mem_append, List.mem_filter, matchesGlob_iff]
    tauto

/-- What `cleanSource` removes. -/
def Out (dir base : Text) (f : File) : Prop := f.dir = dir ∧
  ((f.name ∈ [base ++ ".h".toList, base ++ ".c".toList, base ++ ".cpp".toList] ∧ Generated f.content) ∨
   (base <+: f.name ∧ Visible f.name ∧ (".so".toList <:+ f.name ∨ ".dll".toList <:+ f.name ∨ ".dylib".toList <:+ f.name)))

theorem cleanSource_removes (dir base : Text) : Removes (cleanSource dir base) (Out dir base) := by
  intro fs hu
  have := ((((removeGenerated_removes dir (base ++ ".h".toList)).comp (removeGenerated_removes dir (base ++ ".c".toList))).comp
    (removeGenerated_removes dir (base ++ ".cpp".toList))).comp (removeLibraries_removes dir base)) fs hu
  refine ⟨this.1, fun f => ?_⟩
  have h2 := this.2 f
  unfold cleanSource
  rw [h2]
  refine and_congr_right fun _ => not_congr ?_
  unfold Out
  simp only [List.mem_cons, List.not_mem_nil, or_false]
  generalize (f.name = base ++ ".h".toList) = p1
  generalize (f.name = base ++ ".c".toList) = p2
  generalize (f.name = base ++ ".cpp".toList) = p3
  generalize Generated f.content = p4
  generalize (base <+: f.name ∧ Visible f.name ∧ (".so".toList <:+ f.name ∨ ".dll".toList <:+ f.name ∨ ".dylib".toList <:+ f.name)) = p5
  generalize (f.dir = dir) = p6
  clear h2 this
  tauto

/-- Cython sources are never removed. -/
theorem Out.not_pyx {dir base : Text} {f : File} (h : Out dir base f) : ¬ ".pyx".toList <:+ f.name := by
  rintro ⟨pre, e⟩
  have hlast : f.name.getLast? = some 'x' := by rw [← e]; simp
  obtain ⟨-, ⟨h, -⟩ | ⟨-, -, h⟩⟩ := h
  · simp only [List.mem_cons, List.not_mem_nil, or_false] at h
    rcases h with h | h | h <;> rw [h] at hlast <;> simp at hlast
  · rcases h with ⟨q, h⟩ | ⟨q, h⟩ | ⟨q, h⟩ <;> rw [← h] at hlast <;> simp at hlast

theorem foldl_removes {α : Type} (op : α → List File → List File) (R : α → File → Prop) (h : ∀ a, Removes (op a) (R a))
    (l : List α) : Removes (fun fs => l.foldl (fun fs a => op a fs) fs) (fun f => ∃ a ∈ l, R a f) := by
  induction l with
  | nil => intro fs _; exact ⟨List.Sublist.refl _, fun f => by simp⟩
  | cons a rest ih =>
    intro fs hu
    have := ((h a).comp ih) fs hu
    refine ⟨this.1, fun f => ?_⟩
    have h2 := this.2 f
    simp only [List.foldl_cons] at h2 ⊢
    rw [h2]
    simp

/-- The Cython sources of a directory. -/
def Pyx (fs : List File) (dir base : Text) : Prop :=
  ∃ p ∈ fs, p.dir = dir ∧ p.name = base ++ ".pyx".toList ∧ Visible p.name

theorem cleanExtension_spec (fs : List File) (hu : Distinct fs) (dir : Text) : cleanExtension fs dir <+ fs ∧
    ∀ f, f ∈ cleanExtension fs dir ↔ f ∈ fs ∧ ¬ ∃ base, Pyx fs dir base ∧ Out dir base f := by
  obtain ⟨h1, h2⟩ := foldl_removes (fun (p : File) fs => cleanSource dir (p.name.take (p.name.length - 4)) fs)
    (fun p => Out dir (p.name.take (p.name.length - 4))) (fun p => cleanSource_removes _ _)
    (fs.filter (matchesGlob dir ".pyx".toList)) fs hu
  refine ⟨h1, fun f => ?_⟩
  unfold cleanExtension
  rw [h2]
  refine and_congr_right fun _ => not_congr ⟨?_, ?_⟩
  · rintro ⟨p, hp, ho⟩
    rw [List.mem_filter, matchesGlob_iff] at hp
    obtain ⟨hp, hd, ⟨base, hb⟩, hv⟩ := hp
    refine ⟨base, ⟨p, hp, hd, hb.symm, hv⟩, ?_⟩
    rw [← hb] at ho
    simpa using ho
  · rintro ⟨base, ⟨p, hp, hd, hn, hv⟩, ho⟩
    refine ⟨p, ?_, ?_⟩
    · rw [List.mem_filter, matchesGlob_iff]
      exact ⟨hp, hd, ⟨base, hn.symm⟩, hv⟩
    · rw [hn]
      simpa using ho

theorem cleanExtensions_spec : ∀ (dirs : List Text) (fs : List File), Distinct fs → (cleanExtensions dirs fs <+ fs ∧
    ∀ f, f ∈ cleanExtensions dirs fs ↔ f ∈ fs ∧ ¬ ∃ dir ∈ dirs, ∃ base, Pyx fs dir base ∧ Out dir base f) := by
  intro dirs
  induction dirs with
  | nil => intro fs _; exact ⟨List.Sublist.refl _, fun f => by simp [cleanExtensions]⟩
  | cons d rest ih =>
    intro fs hu
    obtain ⟨h1, h2⟩ := cleanExtension_spec fs hu d
    obtain ⟨h3, h4⟩ := ih (cleanExtension fs d) (distinct_sublist h1 hu)
    have hpyx : ∀ dir base, Pyx (cleanExtension fs d) dir base ↔ Pyx fs dir base := by
      intro dir base
      constructor
      · rintro ⟨p, hp, h⟩; exact ⟨p, ((h2 p).1 hp).1, h⟩
      · rintro ⟨p, hp, h⟩
        exact ⟨p, (h2 p).2 ⟨hp, fun ⟨b, _, ho⟩ => ho.not_pyx ⟨base, h.2.1.symm⟩⟩, h⟩
    refine ⟨h3.trans h1, fun f => ?_⟩
    show f ∈ cleanExtensions rest (cleanExtension fs d) ↔ _
    rw [h4, h2]
    simp only [hpyx, List.mem_cons, exists_eq_or_imp, not_or, and_assoc]

/-- **C82** (cleaning).  In every tree, cleaning removes exactly the files that come from the Cython sources of the extensions:
generated C and C++ files and headers, and libraries named after the sources. -/
theorem clean_exact (dirs : List Text) (fs : List File) (hu : Distinct fs) (f : File) :
    f ∈ cleanExtensions dirs fs ↔ f ∈ fs ∧ ¬ FromCython dirs fs f := by
  rw [(cleanExtensions_spec dirs fs hu).2]
  refine and_congr_right fun _ => not_congr ⟨?_, ?_⟩
  · rintro ⟨dir, hd, base, ⟨p, hp, h1, h2, h3⟩, ho⟩
    obtain ⟨rfl, ho⟩ := ho
    exact ⟨base, p, hp, h1, hd, h2, h3, ho⟩
  · rintro ⟨base, p, hp, h1, hd, h2, h3, ho⟩
    exact ⟨f.dir, hd, base, ⟨p, hp, h1, h2, h3⟩, rfl, ho⟩

/-- **C82** (sources).  A file that Cython did not write and that is no library is kept; so is every Cython source. -/
theorem sources_kept (dirs : List Text) (fs : List File) (hu : Distinct fs) (f : File) (hf : f ∈ fs)
    (hk : (¬ Generated f.content ∧ ¬ ".so".toList <:+ f.name ∧ ¬ ".dll".toList <:+ f.name ∧ ¬ ".dylib".toList <:+ f.name) ∨
      ".pyx".toList <:+ f.name) : f ∈ cleanExtensions dirs fs := by
  rw [clean_exact dirs fs hu]
  refine ⟨hf, fun hc => ?_⟩
  obtain ⟨base, p, -, -, -, -, -, ho⟩ := hc
  rcases hk with ⟨h1, h2, h3, h4⟩ | hk
  · tauto
  · exact Out.not_pyx (dir := f.dir) (base := base) ⟨rfl, ho⟩ hk

/-- **C82** (again).  Cleaning twice is the same as cleaning once. -/
theorem clean_again (dirs : List Text) (fs : List File) (hu : Distinct fs) (f : File) :
    f ∈ cleanExtensions dirs (cleanExtensions dirs fs) ↔ f ∈ cleanExtensions dirs fs := by
  rw [clean_exact dirs _ (distinct_sublist (cleanExtensions_spec dirs fs hu).1 hu)]
  refine ⟨fun h => h.1, fun h => ⟨h, ?_⟩⟩
  rintro ⟨base, p, hp, h'⟩
  exact ((clean_exact dirs fs hu f).1 h).2 ⟨base, p, ((clean_exact dirs fs hu p).1 hp).1, h'⟩

/-! ## What is wrong -/

/-- A tree after an in-source build on Windows: the compiled module has the ending `.pyd`. -/
def windowsTree : List File :=
  [⟨"./imate/functions".toList, "py_functions.pyx".toList, []⟩,
   ⟨"./imate/functions".toList, "py_functions.cpp".toList, "/* Generated by Cython 3.0.0 */\n".toList⟩,
   ⟨"./imate/functions".toList, "py_functions.cp312-win_amd64.pyd".toList, []⟩]

/-- **C82** (Windows), negation: the compiled modules of Windows are not removed, in any environment. -/
theorem windows_modules_stay (env : Build.Env) : cleanExtensions (directories env) windowsTree =
    [⟨"./imate/functions".toList, "py_functions.pyx".toList, []⟩,
     ⟨"./imate/functions".toList, "py_functions.cp312-win_amd64.pyd".toList, []⟩] := by
  unfold directories
  cases (Build.options env).useCuda <;> decide +kernel

/-- **C82** (CUDA), negation: unless `USE_CUDA` is set when cleaning, what was generated for the CUDA extensions stays. -/
theorem cuda_stays (env : Build.Env) (henv : env "USE_CUDA" ≠ some "1") (fs : List File) (hu : Distinct fs) (f : File) (hf : f ∈ fs)
    (hd : f.dir = "./imate/_cu_trace_estimator".toList) : f ∈ cleanExtensions (directories env) fs := by
  rw [clean_exact _ fs hu]
  refine ⟨hf, ?_⟩
  rintro ⟨base, p, -, -, hm, -⟩
  rw [hd] at hm
  have ho : (Build.options env).useCuda = false := by
    unfold Build.options Build.isOn
    cases h : env "USE_CUDA" with
    | none => rfl
    | some v =>
      rw [h] at henv
      simpa using henv
  unfold directories at hm
  rw [ho] at hm
  revert hm
  decide +kernel

/-- **C82** (libraries), negation: a library of the user whose name begins with that of a Cython source is removed, though no
source of the package made it. -/
theorem foreign_library_removed : ∃ fs f, Distinct fs ∧ f ∈ fs ∧ f.name = "py_functions_of_mine.so".toList ∧
    f ∉ cleanExtensions ["./imate/functions".toList] fs := by
  refine ⟨[⟨"./imate/functions".toList, "py_functions.pyx".toList, []⟩,
    ⟨"./imate/functions".toList, "py_functions_of_mine.so".toList, "data".toList⟩],
    ⟨"./imate/functions".toList, "py_functions_of_mine.so".toList, "data".toList⟩, ?_, by simp, rfl, by decide +kernel⟩
  unfold Distinct
  decide +kernel

/-! ## Example -/

example : Distinct windowsTree := by unfold Distinct; decide +kernel

/-- The hypotheses of `cuda_stays`, and a file that stays. -/
example : ∃ fs f, Distinct fs ∧ f ∈ fs ∧ f.dir = "./imate/_cu_trace_estimator".toList ∧ Generated f.content := by
  refine ⟨[⟨"./imate/_cu_trace_estimator".toList, "py_cu_trace_estimator.cpp".toList, "/* Generated by Cython 3.0.0 */\n".toList⟩],
    ⟨"./imate/_cu_trace_estimator".toList, "py_cu_trace_estimator.cpp".toList, "/* Generated by Cython 3.0.0 */\n".toList⟩,
    by unfold Distinct; decide +kernel, by simp, rfl, ?_⟩
  rw [← generated_iff]
  decide +kernel

end Imate.Props.BuildClean
