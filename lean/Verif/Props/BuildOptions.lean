import Verif.Spec.BuildOptions
import Mathlib.Data.List.Nodup
import Mathlib.Tactic.Tauto

/-!
# C80: the build options
-/

namespace Imate.Props.Build

open Imate.Build Imate.Spec.Build
open Imate.LocateCuda (Text Exc Host)

/-! ## Variables -/

theorem isOn_iff (env : Env) (name : String) : isOn env name = true ↔ env name = some "1" := by
  unfold isOn
  cases env name <;> simp

/-- **C80** (variables).  Each option is on exactly if its variable is `1`. -/
theorem option_on (env : Env) :
    ((options env).useCuda = true ↔ env "USE_CUDA" = some "1") ∧
    ((options env).cudaDynamicLoading = true ↔ env "CUDA_DYNAMIC_LOADING" = some "1") ∧
    ((options env).debugMode = true ↔ env "DEBUG_MODE" = some "1") ∧
    ((options env).buildInSource = true ↔ env "CYTHON_BUILD_IN_SOURCE" = some "1") ∧
    ((options env).buildForDoc = true ↔ env "CYTHON_BUILD_FOR_DOC" = some "1") ∧
    ((options env).useCblas = true ↔ env "USE_CBLAS" = some "1") ∧
    ((options env).useLongInt = true ↔ env "USE_LONG_INT" = some "1") ∧
    ((options env).useUnsignedLongInt = true ↔ env "USE_UNSIGNED_LONG_INT" = some "1") :=
  ⟨isOn_iff .., isOn_iff .., isOn_iff .., isOn_iff .., isOn_iff .., isOn_iff .., isOn_iff .., isOn_iff ..⟩

/-- **C80** (documented variable).  The documentation (performance/gpu.rst) tells the user to set `UNSIGNED_LONG_INT`; the
variable changes nothing: the extensions and macros are those without it. -/
theorem documented_unsigned_ignored (env : Env) (value : String) (h : Host) (tree : Tree) :
    build (setVar env "UNSIGNED_LONG_INT" value) h tree = build env h tree := by
  have e : options (setVar env "UNSIGNED_LONG_INT" value) = options env := by
    unfold options isOn setVar
    simp
  unfold build
  rw [e]

/-! ## Macros -/

theorem requestedMacros_iff (env : Env) (m : Macro) : m ∈ requestedMacros (options env) ↔ Asked env m := by
  obtain ⟨-, -, -, -, -, h1, h2, h3⟩ := option_on env
  unfold requestedMacros Asked
  rw [← h1, ← h2, ← h3]
  cases (options env).useCblas <;> cases (options env).useLongInt <;> cases (options env).useUnsignedLongInt <;> simp

/-- The sources of a subpackage before those of other directories. -/
def ownSources (o : Options) (tree : Tree) (package : Text) (r : Request) : List Text :=
  let here := dot package r.subpackage
  let sources := (if tree.glob here ".pyx".toList ≠ [] then [join here "*.pyx".toList] else []) ++
    tree.glob here ".cpp".toList
  if o.useCuda then sources ++ tree.glob here ".cu".toList else sources

theorem createExtension_cases {o : Options} {h : Host} {tree : Tree} {package : Text} {r : Request} {macros : List Macro}
    {e : Extension} {macros' : List Macro} (hc : createExtension o h tree package r macros = .ok (e, macros')) :
    macros' = macros ++ requestedMacros o ∧ ∃ src inc,
      addOtherDirs o tree package r.otherSourceDirs (ownSources o tree package r, [dot package r.subpackage]) = .ok (src, inc) ∧
      (((o.useCuda = false ∨ doesCudaSourceExist src = false) ∧ e.sources = src ∧ e.includeDirs = inc ∧ e.libraryDirs = [] ∧
          e.runtimeLibraryDirs = [] ∧ e.libraries = if o.useCblas then ["openblas"] else []) ∨
       (o.useCuda = true ∧ doesCudaSourceExist src = true ∧ ∃ cuda, locateCuda o h = .ok cuda ∧
          e.sources = (if o.cudaDynamicLoading then
            src ++ tree.glob (dot package "_cuda_dynamic_loading".toList) ".cpp".toList else src) ∧
          e.includeDirs = (inc ++ [pathText cuda.includeDir]) ++
            (if o.cudaDynamicLoading && tree.isDir (dot package "_cuda_dynamic_loading".toList) then
              [dot package "_cuda_dynamic_loading".toList] else []) ∧
          e.libraryDirs = [pathText cuda.lib] ∧
          e.runtimeLibraryDirs = (if h.windows then [] else [pathText cuda.lib]) ∧
          e.libraries = (if o.useCblas then ["openblas"] else []) ++ (if o.cudaDynamicLoading then
            (if h.windows then [] else ["dl"]) else ["cudart", "cublas", "cusparse"]))) := by
  unfold createExtension at hc
  split at hc
  · simp at hc
  · cases ha : addOtherDirs o tree package r.otherSourceDirs (ownSources o tree package r, [dot package r.subpackage]) with
    | error x =>
      have ha' := ha
      unfold ownSources at ha'
      simp only [bind, Except.bind] at hc
      simp only [ha'] at hc
      simp at hc
    | ok p =>
      obtain ⟨src, inc⟩ := p
      have ha' := ha
      unfold ownSources at ha'
      simp only [bind, Except.bind] at hc
      simp only [ha'] at hc
      split at hc
      · rename_i hu
        simp only [Except.ok.injEq, Prod.mk.injEq] at hc
        obtain ⟨rfl, rfl⟩ := hc
        exact ⟨rfl, src, inc, rfl, Or.inl ⟨Or.inl (by simpa using hu), rfl, rfl, rfl, rfl, rfl⟩⟩
      · rename_i hu
        cases hl : locateCuda o h with
        | error x => simp [hl] at hc
        | ok cuda =>
          simp only [hl] at hc
          split at hc
          · rename_i hd
            simp only [Except.ok.injEq, Prod.mk.injEq] at hc
            obtain ⟨rfl, rfl⟩ := hc
            exact ⟨rfl, src, inc, rfl, Or.inl ⟨Or.inr (by simpa using hd), rfl, rfl, rfl, rfl, rfl⟩⟩
          · rename_i hd
            simp only [Except.ok.injEq, Prod.mk.injEq] at hc
            obtain ⟨rfl, rfl⟩ := hc
            refine ⟨rfl, src, inc, rfl, Or.inr ⟨by simpa using hu, by simpa using hd, cuda, rfl, rfl, ?_, rfl, rfl, rfl⟩⟩
            dsimp only
            split <;> simp

theorem createExtension_macros {o : Options} {h : Host} {tree : Tree} {package : Text} {r : Request} {macros : List Macro}
    {e : Extension} {macros' : List Macro} (hc : createExtension o h tree package r macros = .ok (e, macros')) :
    macros' = macros ++ requestedMacros o := (createExtension_cases hc).1

theorem createAll_mem {o : Options} {h : Host} {tree : Tree} {package : Text} (rs : List Request)
    {s t : List Extension × List Macro} (hc : createAll o h tree package rs s = .ok t) {e : Extension} (he : e ∈ t.1) :
    e ∈ s.1 ∨ ∃ r ∈ rs, ∃ m m', createExtension o h tree package r m = .ok (e, m') := by
  induction rs generalizing s with
  | nil =>
    simp only [createAll, Except.ok.injEq] at hc
    subst hc
    exact Or.inl he
  | cons r rest ih =>
    rw [createAll] at hc
    cases hr : createExtension o h tree package r s.2 with
    | error x => simp [hr, bind, Except.bind] at hc
    | ok p =>
      obtain ⟨e', m⟩ := p
      simp only [hr, bind, Except.bind] at hc
      rcases ih hc with h1 | ⟨r', h1, h2⟩
      · rcases List.mem_append.1 h1 with h1 | h1
        · exact Or.inl h1
        · rw [List.mem_singleton] at h1
          subst h1
          exact Or.inr ⟨r, by simp, _, _, hr⟩
      · exact Or.inr ⟨r', List.mem_cons_of_mem _ h1, h2⟩

theorem createAll_macros {o : Options} {h : Host} {tree : Tree} {package : Text} (rs : List Request)
    {s t : List Extension × List Macro} (hc : createAll o h tree package rs s = .ok t) :
    t.2 = s.2 ++ (List.replicate rs.length (requestedMacros o)).flatten ∧ t.1.length = s.1.length + rs.length := by
  induction rs generalizing s with
  | nil =>
    simp only [createAll, Except.ok.injEq] at hc
    subst hc
    simp
  | cons r rest ih =>
    rw [createAll] at hc
    cases hr : createExtension o h tree package r s.2 with
    | error x => simp [hr, bind, Except.bind] at hc
    | ok p =>
      obtain ⟨e, m⟩ := p
      simp only [hr, bind, Except.bind] at hc
      obtain ⟨h1, h2⟩ := ih hc
      rw [createExtension_macros hr] at h1
      refine ⟨?_, ?_⟩
      · rw [h1]; simp [List.replicate_succ]
      · rw [h2]; simp; omega

/-- **C80** (macros).  The macros of every extension are those that the environment asks for; but each occurs once for every
extension of the package, because the calls extend one list. -/
theorem macros_asked (env : Env) (h : Host) (tree : Tree) {exts : List Extension} {macros : List Macro}
    (hb : build env h tree = .ok (exts, macros)) :
    (∀ m, m ∈ macros ↔ Asked env m) ∧ ∀ m, Asked env m → macros.count m = exts.length := by
  obtain ⟨h1, h2⟩ := createAll_macros _ hb
  simp only [List.nil_append, List.length_nil, Nat.zero_add] at h1 h2
  have hpos : 0 < (requests (options env).useCuda).length := by cases (options env).useCuda <;> decide
  have hnd : (requestedMacros (options env)).Nodup := by
    unfold requestedMacros
    cases (options env).useCblas <;> cases (options env).useLongInt <;> cases (options env).useUnsignedLongInt <;> decide
  constructor
  · intro m
    rw [h1, ← requestedMacros_iff, List.mem_flatten]
    constructor
    · rintro ⟨l, hl, hm⟩
      rwa [List.eq_of_mem_replicate hl] at hm
    · intro hm
      exact ⟨_, List.mem_replicate.2 ⟨by omega, rfl⟩, hm⟩
  · intro m hm
    rw [← requestedMacros_iff] at hm
    rw [h1, h2, List.count_flatten, List.map_replicate, hnd.count, if_pos hm]
    simp

/-! ## Index types -/

theorem macroOn_iff {env : Env} {macros : List Macro} (hm : ∀ m, m ∈ macros ↔ Asked env m) {name var : String}
    (hn : ∀ v, Asked env (name, v) ↔ v = "1" ∧ env var = some "1") : macroOn macros name = true ↔ env var = some "1" := by
  unfold macroOn
  cases hf : macros.reverse.find? (fun m => decide (m.1 = name)) with
  | none =>
    simp only [Option.map_none]
    rw [List.find?_eq_none] at hf
    constructor
    · intro e; simp at e
    · intro e
      have := (hm (name, "1")).2 ((hn "1").2 ⟨rfl, e⟩)
      simpa using hf (name, "1") (by simpa using this)
  | some m =>
    obtain ⟨n, v⟩ := m
    have h1 := List.find?_some hf
    have h2 : (n, v) ∈ macros := by simpa using List.mem_of_find?_eq_some hf
    simp only [decide_eq_true_eq] at h1
    subst h1
    obtain ⟨rfl, h3⟩ := (hn v).1 ((hm _).1 h2)
    simp [h3]

/-- **C80** (index types).  Of all builds, only those without `USE_LONG_INT` and `USE_UNSIGNED_LONG_INT` have sparse
matrices: with either, the pointers to the indices of a sparse matrix do not have the type of the operator's argument. -/
theorem index_types_partial (env : Env) (h : Host) (tree : Tree) {exts : List Extension} {macros : List Macro}
    (hb : build env h tree = .ok (exts, macros)) :
    pointerAccepted macros = true ↔ env "USE_LONG_INT" ≠ some "1" ∧ env "USE_UNSIGNED_LONG_INT" ≠ some "1" := by
  have hm := (macros_asked env h tree hb).1
  have h1 : macroOn macros "LONG_INT" = true ↔ env "USE_LONG_INT" = some "1" :=
    macroOn_iff hm (fun v => by unfold Asked; simp)
  have h2 : macroOn macros "UNSIGNED_LONG_INT" = true ↔ env "USE_UNSIGNED_LONG_INT" = some "1" :=
    macroOn_iff hm (fun v => by unfold Asked; simp)
  rw [Ne, Ne, ← h1, ← h2]
  unfold pointerAccepted longIndexType memoryViewType memoryViewOf
  cases macroOn macros "LONG_INT" <;> cases macroOn macros "UNSIGNED_LONG_INT" <;> simp

/-- **C80** (index types at run time).  Even if the compiler took the pointers, the arrays of a sparse matrix would be
refused (`ValueError`), except for `USE_LONG_INT` on Windows, where it changes nothing. -/
theorem views_refused (env : Env) (h : Host) (tree : Tree) (windows : Bool) {exts : List Extension} {macros : List Macro}
    (hb : build env h tree = .ok (exts, macros)) :
    viewAccepted windows macros = true ↔
      env "USE_UNSIGNED_LONG_INT" ≠ some "1" ∧ (env "USE_LONG_INT" = some "1" → windows = true) := by
  have hm := (macros_asked env h tree hb).1
  have h1 : macroOn macros "LONG_INT" = true ↔ env "USE_LONG_INT" = some "1" :=
    macroOn_iff hm (fun v => by unfold Asked; simp)
  have h2 : macroOn macros "UNSIGNED_LONG_INT" = true ↔ env "USE_UNSIGNED_LONG_INT" = some "1" :=
    macroOn_iff hm (fun v => by unfold Asked; simp)
  rw [Ne, ← h1, ← h2]
  unfold viewAccepted longIndexType memoryViewType memoryViewOf dtype
  cases macroOn macros "LONG_INT" <;> cases macroOn macros "UNSIGNED_LONG_INT" <;> cases windows <;> simp

/-- **C80** (what the views would need).  If the two constants of Cython had the values of the two macros, the views of the
indices would have the type of the indices in every build. -/
theorem views_follow_constants (macros : List Macro) :
    memoryViewOf (macroOn macros "LONG_INT") (macroOn macros "UNSIGNED_LONG_INT") = longIndexType macros := by
  unfold memoryViewOf longIndexType
  cases macroOn macros "LONG_INT" <;> cases macroOn macros "UNSIGNED_LONG_INT" <;> rfl

/-! ## Sources, directories and libraries -/

theorem doesCudaSourceExist_iff (l : List Text) : doesCudaSourceExist l = true ↔ ∃ s ∈ l, splitext s = ".cu".toList := by
  induction l with
  | nil => simp [doesCudaSourceExist]
  | cons s rest ih =>
    rw [doesCudaSourceExist]
    split
    · rename_i hs; simp [hs]
    · rename_i hs
      rw [ih]
      constructor
      · rintro ⟨t, ht, e⟩; exact ⟨t, List.mem_cons_of_mem _ ht, e⟩
      · rintro ⟨t, ht, e⟩
        rcases List.mem_cons.1 ht with rfl | ht
        · exact absurd e hs
        · exact ⟨t, ht, e⟩

/-- The last part of a text that is split at a character. -/
theorem split_last (c : Char) (p : Text) : ∃ pre last, LocateCuda.split c p = pre ++ [last] ∧ c ∉ last ∧
    ((pre = [] ∧ p = last) ∨ (pre ≠ [] ∧ ∃ d, p = d ++ c :: last)) := by
  induction p with
  | nil => exact ⟨[], [], rfl, by simp, Or.inl ⟨rfl, rfl⟩⟩
  | cons x xs ih =>
    obtain ⟨pre, last, e, hc, h⟩ := ih
    unfold LocateCuda.split at e ⊢
    rw [LocateCuda.splitBy]
    by_cases hx : x = c
    · subst hx
      rw [if_pos (by simp)]
      refine ⟨[] :: pre, last, by rw [e]; rfl, hc, Or.inr ⟨by simp, ?_⟩⟩
      rcases h with ⟨_, rfl⟩ | ⟨_, d, rfl⟩
      · exact ⟨[], rfl⟩
      · exact ⟨x :: d, rfl⟩
    · rw [if_neg (by simpa using hx), e]
      rcases h with ⟨rfl, rfl⟩ | ⟨hp, d, rfl⟩
      · exact ⟨[], x :: xs, rfl, by simpa using ⟨fun e => hx e.symm, hc⟩, Or.inl ⟨rfl, rfl⟩⟩
      · cases pre with
        | nil => exact absurd rfl hp
        | cons w ws => exact ⟨(x :: w) :: ws, last, rfl, hc, Or.inr ⟨by simp, x :: d, rfl⟩⟩

/-- Two ends of a text after the last separator are the same. -/
theorem after_last {c : Char} {a b d e : Text} (hb : c ∉ b) (he : c ∉ e) (h : a ++ c :: b = d ++ c :: e) : b = e := by
  rcases List.append_eq_append_iff.1 h with ⟨m, -, hm⟩ | ⟨m, -, hm⟩
  · cases m with
    | nil => simpa using hm
    | cons x xs =>
      simp only [List.cons_append, List.cons.injEq] at hm
      exact absurd (hm.2 ▸ by simp) hb
  · cases m with
    | nil => simpa using hm.symm
    | cons x xs =>
      simp only [List.cons_append, List.cons.injEq] at hm
      exact absurd (hm.2 ▸ by simp) he

/-- **C80** (sources).  The sources are taken for CUDA exactly if the name of one of them ends in `.cu`. -/
theorem cuda_source_iff (l : List Text) :
    doesCudaSourceExist l = true ↔ ∃ s ∈ l, ∃ stem, s = stem ++ ".cu".toList := by
  rw [doesCudaSourceExist_iff]
  refine exists_congr fun s => and_congr_right fun _ => ?_
  obtain ⟨pre, base, e, hb, h⟩ := split_last '/' s
  obtain ⟨pre', ext, e', hx, h'⟩ := split_last '.' base
  have hs : splitext s = if pre' = [] then [] else '.' :: ext := by
    unfold splitext
    rw [e]
    simp only [List.getLast?_append, List.getLast?_singleton, Option.some_or, Option.getD_some]
    rw [e']
    simp only [List.reverse_append, List.reverse_cons, List.reverse_nil, List.nil_append, List.singleton_append]
    rcases List.eq_nil_or_concat pre' with rfl | ⟨i, w, rfl⟩
    · rfl
    · simp
  have hcu : ".cu".toList = '.' :: ['c', 'u'] := by decide
  rw [hs, hcu]
  constructor
  · intro hh
    rcases h' with ⟨rfl, -⟩ | ⟨hp, d, rfl⟩
    · simp at hh
    · rw [if_neg hp] at hh
      rw [← hh]
      rcases h with ⟨-, rfl⟩ | ⟨-, q, rfl⟩
      · exact ⟨d, rfl⟩
      · exact ⟨q ++ '/' :: d, by simp⟩
  · rintro ⟨stem, hst⟩
    have hcut : ∃ d, base = d ++ '.' :: ['c', 'u'] := by
      rcases h with ⟨-, rfl⟩ | ⟨-, q, hq⟩
      · exact ⟨stem, hst⟩
      · rw [hq] at hst
        rcases List.append_eq_append_iff.1 hst with ⟨m, -, hm⟩ | ⟨m, -, hm⟩
        · cases m with
          | nil => simp at hm
          | cons x xs =>
            simp only [List.cons_append, List.cons.injEq] at hm
            exact ⟨xs, hm.2⟩
        · exfalso
          rcases m with _ | ⟨x, _ | ⟨y, _ | ⟨z, _ | ⟨w, m⟩⟩⟩⟩ <;> simp at hm
    obtain ⟨d, hd⟩ := hcut
    rcases h' with ⟨rfl, rfl⟩ | ⟨hp, d', hd'⟩
    · exact absurd (hd ▸ by simp) hx
    · rw [if_neg hp, after_last hx (by decide) (hd'.symm.trans hd)]

example : doesCudaSourceExist ["a.b/cu".toList, "src/x.cpp".toList] = false ∧
    doesCudaSourceExist ["src/x.cpp".toList, "src/x.y.cu".toList] = true := by decide +kernel

theorem addOtherDirs_include {o : Options} {tree : Tree} {package : Text} (dirs : List Text) {s t : List Text × List Text}
    (hc : addOtherDirs o tree package dirs s = .ok t) {d : Text} (hd : d ∈ t.2) (hl : d.length ≠ 1) : d ∈ s.2 := by
  induction dirs generalizing s with
  | nil =>
    simp only [addOtherDirs, Except.ok.injEq] at hc
    rwa [hc]
  | cons x rest ih =>
    obtain ⟨src, inc⟩ := s
    rw [addOtherDirs] at hc
    split at hc
    · simp at hc
    · have := ih hc
      simp only [List.mem_append, List.mem_map] at this
      rcases this with h1 | ⟨c, -, rfl⟩
      · exact h1
      · simp at hl

/-- **C80** (include directories).  The docstring of `create_extension` says that the directories of the other sources are
include directories.  None is, in any build: their characters are. -/
theorem source_dirs_not_included (env : Env) (h : Host) (tree : Tree) {exts : List Extension} {macros : List Macro}
    (hb : build env h tree = .ok (exts, macros)) : ∀ e ∈ exts, ∀ d : Text, join "imate".toList d ∉ e.includeDirs := by
  intro e he d hd
  rcases createAll_mem _ hb he with h1 | ⟨r, hr, m, m', hc⟩
  · simp at h1
  · obtain ⟨-, src, inc, ha, hcase⟩ := createExtension_cases hc
    have hinc : join "imate".toList d ∉ inc := fun hi => by
      have := addOtherDirs_include _ ha hi (by simp [join])
      simp [dot, join] at this
    rcases hcase with ⟨-, -, h2, -⟩ | ⟨-, -, cuda, hl, -, h2, -⟩
    · exact hinc (h2 ▸ hd)
    · rw [h2, List.mem_append, List.mem_append] at hd
      rcases hd with (hd | hd) | hd
      · exact hinc hd
      · rw [List.mem_singleton] at hd
        obtain ⟨home, e⟩ : ∃ home, cuda.includeDir = home ++ ["include"] := by
          unfold Imate.Build.locateCuda at hl
          simp only [bind, Except.bind] at hl
          split at hl
          · simp at hl
          · split at hl
            · simp at hl
            · split at hl
              · simp at hl
              · split at hl
                · simp at hl
                · split at hl
                  · simp at hl
                  · split at hl
                    · simp at hl
                    · simp only [Except.ok.injEq] at hl
                      exact ⟨_, by rw [← hl]⟩
        rw [e] at hd
        have h3 : (pathText (home ++ ["include"])).head? = some '/' := by
          unfold pathText
          cases home <;> simp
        rw [← hd] at h3
        simp [join] at h3
      · split at hd
        · simp [dot, join] at hd
        · simp at hd

theorem addOtherDirs_char {o : Options} {tree : Tree} {package : Text} (dirs : List Text) {s t : List Text × List Text}
    (hc : addOtherDirs o tree package dirs s = .ok t) : (∀ x ∈ s.2, x ∈ t.2) ∧ (dirs ≠ [] → ['/'] ∈ t.2) := by
  induction dirs generalizing s with
  | nil =>
    simp only [addOtherDirs, Except.ok.injEq] at hc
    subst hc
    exact ⟨fun x hx => hx, fun h => absurd rfl h⟩
  | cons x rest ih =>
    obtain ⟨src, inc⟩ := s
    rw [addOtherDirs] at hc
    split at hc
    · simp at hc
    · have := (ih hc).1
      refine ⟨fun y hy => this y (List.mem_append_left _ hy), fun _ => this _ (List.mem_append_right _ ?_)⟩
      simp [join]

/-- **C80** (include directories).  Instead, the root of the file system is an include directory of every extension with
other sources. -/
theorem root_included (o : Options) (h : Host) (tree : Tree) (package : Text) (r : Request) (m m' : List Macro)
    {e : Extension} (hc : createExtension o h tree package r m = .ok (e, m')) (hr : r.otherSourceDirs ≠ []) :
    ['/'] ∈ e.includeDirs := by
  obtain ⟨-, src, inc, ha, hcase⟩ := createExtension_cases hc
  have h1 := (addOtherDirs_char _ ha).2 hr
  rcases hcase with ⟨-, -, h2, -⟩ | ⟨-, -, cuda, -, -, h2, -⟩
  · rw [h2]; exact h1
  · rw [h2]; exact List.mem_append_left _ (List.mem_append_left _ h1)

/-- **C80** (libraries).  An extension is linked with the libraries of CUDA exactly if the build uses CUDA, does not load it
dynamically, and the extension has a source in CUDA. -/
theorem cuda_libraries (env : Env) (h : Host) (tree : Tree) {exts : List Extension} {macros : List Macro}
    (hb : build env h tree = .ok (exts, macros)) (lib : String) (hlib : lib ∈ ["cudart", "cublas", "cusparse"]) :
    ∀ e ∈ exts, lib ∈ e.libraries ↔ env "USE_CUDA" = some "1" ∧ env "CUDA_DYNAMIC_LOADING" ≠ some "1" ∧
      ∃ s ∈ e.sources, splitext s = ".cu".toList := by
  intro e he
  obtain ⟨o1, o2, -⟩ := option_on env
  rcases createAll_mem _ hb he with h1 | ⟨r, hr, m, m', hc⟩
  · simp at h1
  · obtain ⟨-, src, inc, ha, hcase⟩ := createExtension_cases hc
    have hb1 : lib ∉ (if (options env).useCblas then ["openblas"] else [] : List String) := by
      intro hx
      split at hx
      · rw [List.mem_singleton] at hx
        subst hx
        exact absurd hlib (by decide)
      · simp at hx
    rw [Ne, ← o1, ← o2]
    rcases hcase with ⟨h1, h2, -, -, -, h3⟩ | ⟨h1, h2, cuda, hl, h3, -, -, -, h4⟩
    · rw [h2, h3, ← doesCudaSourceExist_iff]
      refine ⟨fun hx => absurd hx hb1, fun ⟨a, _, b⟩ => ?_⟩
      rcases h1 with h1 | h1
      · rw [a] at h1; exact absurd h1 (by decide)
      · rw [b] at h1; exact absurd h1 (by decide)
    · rw [h3, h4, List.mem_append]
      cases hd : (options env).cudaDynamicLoading with
      | true =>
        simp only [if_true, hb1, false_or]
        refine ⟨fun hx => ?_, fun hx => absurd trivial hx.2.1⟩
        split at hx
        · simp at hx
        · rw [List.mem_singleton] at hx
          subst hx
          exact absurd hlib (by decide)
      | false =>
        simp only [Bool.false_eq_true, if_false, ← doesCudaSourceExist_iff]
        exact ⟨fun _ => ⟨h1, by simp, h2⟩, fun _ => Or.inr hlib⟩

/-! ## The toolkit -/

/-- **C80** (toolkit).  The build finds a CUDA toolkit exactly if `imate.device.locate_cuda` finds one on the same machine,
and it is the same. -/
theorem same_toolkit (o : Options) (ho : o.useCuda = true) (h : Host) (cuda : LocateCuda.Cuda) :
    Imate.Build.locateCuda o h = .ok cuda ↔ LocateCuda.locateCuda h = .ok (some cuda) := by
  unfold Imate.Build.locateCuda LocateCuda.locateCuda
  rw [ho]
  simp only [Bool.not_true, Bool.false_eq_true, if_false, bind, Except.bind]
  cases LocateCuda.findHome h with
  | error x => simp
  | ok r =>
    cases r with
    | none => simp
    | some p =>
      obtain ⟨home, nvcc⟩ := p
      dsimp only
      split
      · simp
      · cases LocateCuda.findLib h home with
        | error x => simp
        | ok lib =>
          cases LocateCuda.getCudaVersion h home with
          | error x => simp
          | ok v => simp

/-! ## Devices -/

theorem mem_gencodes (major : ℕ) (g : Gencode) : g ∈ gencodes major ↔
    (g = ⟨35, true, 35⟩ ∧ major < 12) ∨ g ∈ [⟨50, true, 50⟩, ⟨52, true, 52⟩, ⟨60, true, 60⟩, ⟨61, true, 61⟩, ⟨70, true, 70⟩,
      ⟨75, true, 75⟩] ∨ (g = ⟨75, false, 75⟩ ∧ major < 11) ∨
      (g ∈ [⟨80, true, 80⟩, ⟨86, true, 86⟩, ⟨86, false, 86⟩] ∧ ¬ major < 11) := by
  unfold gencodes
  simp only [List.mem_append]
  by_cases h1 : major < 12 <;> by_cases h2 : major < 11 <;> simp [h1, h2] <;> tauto

/-- **C80** (devices).  The device code of a build runs on all devices of compute capability 5.0 or more, with every
toolkit, on those of 3.5 and 3.7 before toolkit 12, and on no others. -/
theorem devices_supported (toolkit major minor : ℕ) (hm : minor ≤ 9) :
    Supported (gencodes toolkit) major minor ↔ 5 ≤ major ∨ (major = 3 ∧ 5 ≤ minor ∧ toolkit < 12) := by
  unfold Supported
  simp only [mem_gencodes]
  constructor
  · rintro ⟨g, hg, hr⟩
    unfold RunsOn at hr
    simp only [List.mem_cons, List.not_mem_nil, or_false] at hg
    rcases hg with ⟨rfl, h1⟩ | (rfl | rfl | rfl | rfl | rfl | rfl) | ⟨rfl, h1⟩ | ⟨rfl | rfl | rfl, h1⟩ <;>
      simp at hr <;> omega
  · rintro (h5 | ⟨rfl, h5, h12⟩)
    · by_cases h9 : 9 ≤ major
      · by_cases h11 : toolkit < 11
        · exact ⟨⟨75, false, 75⟩, Or.inr (Or.inr (Or.inl ⟨rfl, h11⟩)), by simp [RunsOn]; omega⟩
        · exact ⟨⟨86, false, 86⟩, Or.inr (Or.inr (Or.inr ⟨by simp, h11⟩)), by simp [RunsOn]; omega⟩
      · have hcase : major = 5 ∨ major = 6 ∨ major = 7 ∨ major = 8 := by omega
        rcases hcase with rfl | rfl | rfl | rfl
        · exact ⟨⟨50, true, 50⟩, Or.inr (Or.inl (by simp)), by simp [RunsOn]⟩
        · exact ⟨⟨60, true, 60⟩, Or.inr (Or.inl (by simp)), by simp [RunsOn]⟩
        · exact ⟨⟨70, true, 70⟩, Or.inr (Or.inl (by simp)), by simp [RunsOn]⟩
        · by_cases h11 : toolkit < 11
          · exact ⟨⟨75, false, 75⟩, Or.inr (Or.inr (Or.inl ⟨rfl, h11⟩)), by simp [RunsOn]; omega⟩
          · exact ⟨⟨80, true, 80⟩, Or.inr (Or.inr (Or.inr ⟨by simp, h11⟩)), by simp [RunsOn]⟩
    · exact ⟨⟨35, true, 35⟩, Or.inl ⟨rfl, h12⟩, by simp [RunsOn]; omega⟩

/-- **C80** (toolkits).  The compiler of a CUDA toolkit knows all architectures that are asked for exactly if the toolkit is
10.x, 11.1 to 11.x, or 12.x; in particular a build with 11.0, or with 13.0 and later, cannot succeed. -/
theorem toolkits_partial (major minor : ℕ) : (∀ g ∈ gencodes major, Knows (major, minor) g.arch) ↔
    major = 10 ∨ (major = 11 ∧ 1 ≤ minor) ∨ major = 12 := by
  constructor
  · intro h
    have h75 := h ⟨75, true, 75⟩ ((mem_gencodes _ _).2 (Or.inr (Or.inl (by simp))))
    have h50 := h ⟨50, true, 50⟩ ((mem_gencodes _ _).2 (Or.inr (Or.inl (by simp))))
    simp only [Knows] at h75 h50
    by_cases h11 : major < 11
    · omega
    · have h86 := h ⟨86, true, 86⟩ ((mem_gencodes _ _).2 (Or.inr (Or.inr (Or.inr ⟨by simp, h11⟩))))
      simp only [Knows] at h86
      omega
  · intro hv g hg
    rw [mem_gencodes] at hg
    simp only [List.mem_cons, List.not_mem_nil, or_false] at hg
    rcases hg with ⟨rfl, h1⟩ | (rfl | rfl | rfl | rfl | rfl | rfl) | ⟨rfl, h1⟩ | ⟨rfl | rfl | rfl, h1⟩ <;>
      rcases hv with rfl | ⟨rfl, hv⟩ | rfl <;> first | omega | (simp [Knows] <;> omega) | simp [Knows]

/-! ## Flags -/

/-- **C80** (OpenMP).  If the flags are found, the compiler accepts the OpenMP flags among them, and they are the last of the
compile flags; the build fails exactly if the compiler accepts none of the known flags. -/
theorem openmp_flags (o : Options) (c : Compiler) :
    (∀ cf lf, flags o c = some (cf, lf) → ∃ omp, omp <:+ cf ∧ (omp.getLast? = some "-fopenmp" ∨ omp.getLast? = some "/openmp") ∧
      c.accepts omp (if c.msvc then lf ++ ["/DLL"] else lf) = true) ∧
    (c.pyodide = true → flags o c = none) ∧
    (c.pyodide = false → (flags o c = none ↔ if c.msvc then c.accepts ["/O2", "/Wall", "/openmp"] ["/DLL"] = false
      else c.accepts ["-fopenmp"] ["-fopenmp"] = false ∧ c.accepts ["-Xpreprocessor", "-fopenmp"]
        ["-Xpreprocessor", "-fopenmp", "-lomp", "-headerpad_max_install_names"] = false)) := by
  refine ⟨?_, ?_, ?_⟩
  · intro cf lf hf
    unfold flags hasFlag at hf
    cases hp : c.pyodide with
    | true => rw [hp] at hf; cases hm : c.msvc <;> simp [hm] at hf
    | false =>
      cases hm : c.msvc with
      | true =>
        simp only [hp, hm, if_true, Bool.false_eq_true, if_false] at hf
        split at hf
        · rename_i ha
          simp only [Option.some.injEq, Prod.mk.injEq] at hf
          obtain ⟨rfl, rfl⟩ := hf
          exact ⟨_, List.suffix_refl _, Or.inr rfl, by simpa using ha⟩
        · simp at hf
      | false =>
        simp only [hp, hm, Bool.false_eq_true, if_false] at hf
        split at hf
        · rename_i ha
          simp only [Option.some.injEq, Prod.mk.injEq] at hf
          obtain ⟨rfl, rfl⟩ := hf
          exact ⟨_, List.suffix_append _ _, Or.inl rfl, by simpa using ha⟩
        · split at hf
          · rename_i ha
            simp only [Option.some.injEq, Prod.mk.injEq] at hf
            obtain ⟨rfl, rfl⟩ := hf
            exact ⟨_, List.suffix_append _ _, Or.inl rfl, by simpa using ha⟩
          · simp at hf
  · intro hp
    unfold flags hasFlag
    cases hm : c.msvc <;> simp [hp]
  · intro hp
    unfold flags hasFlag
    cases hm : c.msvc with
    | true => simp [hp]
    | false =>
      simp only [hp, Bool.false_eq_true, if_false]
      split
      · rename_i ha; simp [ha]
      · rename_i ha
        split
        · rename_i hb; simp [hb]
        · rename_i hb; simp [ha, hb]

/-- **C80** (debugging).  `DEBUG_MODE` adds no debugging symbols to the code for the processor: no build has the flag `-g`.
Nor does any build strip symbols: the linker is not told to. -/
theorem no_debug_symbols (o : Options) (c : Compiler) {cf lf : List String} (hf : flags o c = some (cf, lf)) :
    "-g" ∉ cf ∧ ∀ f ∈ lf, f ∉ ["-s", "-Wl,-s", "-Wl,--strip-all", "-Wl, --strip-all"] := by
  unfold flags at hf
  split at hf
  · split at hf
    · simp only [Option.some.injEq, Prod.mk.injEq] at hf
      obtain ⟨rfl, rfl⟩ := hf
      exact ⟨by decide, by decide⟩
    · simp at hf
  · dsimp only at hf
    split at hf
    · simp only [Option.some.injEq, Prod.mk.injEq] at hf
      obtain ⟨rfl, rfl⟩ := hf
      exact ⟨by cases o.debugMode <;> decide, by decide⟩
    · split at hf
      · simp only [Option.some.injEq, Prod.mk.injEq] at hf
        obtain ⟨rfl, rfl⟩ := hf
        exact ⟨by cases o.debugMode <;> decide, by decide⟩
      · simp at hf

/-! ## A build -/

/-- A machine with CUDA 12.2.0 in `/opt/cuda`. -/
def exampleHost : Host where
  env := fun v => if v = "CUDA_HOME" then some ["opt", "cuda"] else none
  searchPath := some [["usr", "bin"]]
  pathExists := fun p => p ∈ [["opt", "cuda"], ["opt", "cuda", "bin", "nvcc"], ["opt", "cuda", "include"],
    ["opt", "cuda", "lib64"]]
  absPath := id
  windows := false
  is64 := true
  read := fun p => if p = ["opt", "cuda", "version.txt"] then some "CUDA Version 12.2.0".toList else none
  jsonVersion := fun _ => .error .keyError

/-- A tree in which every directory has one file of each kind, except that only `_cuda_utilities` has one in CUDA. -/
def exampleTree : Tree where
  isDir := fun _ => true
  glob := fun d ext =>
    if ext = ".cu".toList then (if d = "./imate/_cuda_utilities".toList then [join d "query.cu".toList] else [])
    else [join d ("file".toList ++ ext)]

/-- An environment with CUDA and unsigned indices. -/
def exampleEnv : Env := fun n => if n = "USE_CUDA" ∨ n = "USE_UNSIGNED_LONG_INT" then some "1" else none

theorem example_build : ∃ exts macros, build exampleEnv exampleHost exampleTree = .ok (exts, macros) ∧ exts.length = 19 ∧
    (exts.map fun e => e.libraries) = List.replicate 15 [] ++ [["cudart", "cublas", "cusparse"]] ++ List.replicate 3 [] := by
  cases h : build exampleEnv exampleHost exampleTree with
  | error x =>
    have : (build exampleEnv exampleHost exampleTree).isOk = true := by decide +kernel
    rw [h] at this
    simp [Except.isOk, Except.toBool] at this
  | ok p =>
    refine ⟨p.1, p.2, rfl, ?_, ?_⟩
    · have : (build exampleEnv exampleHost exampleTree).toOption.map (fun p => p.1.length) = some 19 := by decide +kernel
      rw [h] at this
      simpa [Except.toOption] using this
    · have : (build exampleEnv exampleHost exampleTree).toOption.map (fun p => p.1.map fun e => e.libraries) =
          some (List.replicate 15 [] ++ [["cudart", "cublas", "cusparse"]] ++ List.replicate 3 []) := by decide +kernel
      rw [h] at this
      simpa [Except.toOption] using this

/-- In this build the macros are defined nineteen times, and sparse matrices cannot be used. -/
example : ∃ exts macros, build exampleEnv exampleHost exampleTree = .ok (exts, macros) ∧
    macros.count ("UNSIGNED_LONG_INT", "1") = 19 ∧ pointerAccepted macros = false ∧ viewAccepted false macros = false := by
  obtain ⟨exts, macros, hb, hl, -⟩ := example_build
  refine ⟨exts, macros, hb, ?_, ?_, ?_⟩
  · rw [(macros_asked _ _ _ hb).2 _ (by unfold Asked exampleEnv; simp), hl]
  · have := index_types_partial _ _ _ hb
    rw [← Bool.not_eq_true, this]
    simp [exampleEnv]
  · have := views_refused _ _ _ false hb
    rw [← Bool.not_eq_true, this]
    simp [exampleEnv]

example : Imate.Build.locateCuda (options exampleEnv) exampleHost = .ok ⟨["opt", "cuda"], ["opt", "cuda", "bin", "nvcc"],
    ["opt", "cuda", "include"], ["opt", "cuda", "lib64"], ⟨12, some 2, some 0⟩⟩ := by decide +kernel

/-- A compiler like clang on macOS: OpenMP only through the preprocessor. -/
example : ∃ cf lf, flags (options exampleEnv) ⟨false, false, fun c _ => c = ["-Xpreprocessor", "-fopenmp"]⟩ = some (cf, lf) ∧
    "-lomp" ∈ lf := ⟨_, _, rfl, by decide⟩

end Imate.Props.Build
