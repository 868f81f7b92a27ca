import Verif.Lemmas.LocateCuda

/-! # C72: CUDA is found where the documentation says, with its version -/

namespace Imate.Props

open Imate.LocateCuda Imate.Spec

/-- The line of the header that defines the version; `sep` is a space or a tab. -/
def versionLine (sep : Char) (n : ℕ) : Text := "#define CUDA_VERSION".toList ++ sep :: (decimal n ++ ['\n'])

theorem versionLine_eq (sep : Char) (n : ℕ) : versionLine sep n = marker ++ (sep :: (decimal n ++ ['\n'])) := rfl

theorem decimal_ne_nil (n : ℕ) : decimal n ≠ [] := by
  obtain ⟨ds, -, h, e, -⟩ := decimal_eq n
  rw [e]
  simpa using h

theorem isVersionLine_versionLine {sep : Char} (hsep : sep = ' ' ∨ sep = '\t') (n : ℕ) :
    isVersionLine (versionLine sep n) = true := by
  have h : (versionLine sep n).dropPrefix? marker = some (sep :: (decimal n ++ ['\n'])) := by
    rw [List.dropPrefix?_eq_some_iff]
    exact ⟨marker, versionLine_eq sep n, by simp⟩
  have hall := (decimal_digits n).all
  have hs : sep ≠ '\n' := by rcases hsep with rfl | rfl <;> decide
  unfold isVersionLine
  rw [h]
  simp only [List.getLast?_append, List.getLast?_singleton, Option.some_or, if_true, List.dropLast_concat]
  simp [decimal_ne_nil n, hs]
  simpa using hall

theorem words_versionLine {sep : Char} (hsep : sep = ' ' ∨ sep = '\t') (n : ℕ) :
    (words (versionLine sep n)).getLast? = some (decimal n) := by
  have e : versionLine sep n = "#define".toList ++ ' ' :: ("CUDA_VERSION".toList ++ sep :: (decimal n ++ '\n' :: [])) := by
    have : "#define CUDA_VERSION".toList = "#define".toList ++ ' ' :: "CUDA_VERSION".toList := by decide
    unfold versionLine
    rw [this]
    simp
  rw [e, words_word (by decide) (by decide) ' ' (by decide),
    words_word (by decide) (by decide) sep (by rcases hsep with rfl | rfl <;> decide),
    words_word (fun c hc => (decimal_digits n).noSpace hc) (decimal_ne_nil n) '\n' (by decide)]
  have : words [] = [] := by decide
  simp [this]

/-- Three numerals separated by points are read as the three numbers. -/
theorem parse_three {a b c : Text} {x y z : ℕ} (ha : '.' ∉ a) (hb : '.' ∉ b) (hc : '.' ∉ c)
    (ia : int a = .ok x) (ib : int b = .ok y) (ic : int c = .ok z)
    {s : Text} (hs : (split ' ' s).getLast? = some (a ++ '.' :: (b ++ '.' :: c))) :
    parseVersion s = .ok ⟨x, some y, some z⟩ := by
  unfold parseVersion
  rw [hs, Option.getD_some, split_append ha, split_append hb, split_none hc]
  simp only [List.mapM_cons, List.mapM_nil, ia, ib, ic]
  rfl

theorem defines_of_isVersionLine {l : Text} (h : isVersionLine l = true) : DefinesVersion l := by
  unfold isVersionLine at h
  cases hd : l.dropPrefix? marker with
  | none => rw [hd] at h; simp at h
  | some rest =>
    rw [hd] at h
    obtain ⟨p, e, hp⟩ := List.dropPrefix?_eq_some_iff.1 hd
    have hp' : p = marker := by simpa using hp
    subst hp'
    cases rest with
    | nil => simp at h
    | cons c ds =>
      by_cases hl : ds.getLast? = some '\n'
      · simp only [hl, if_true, decide_eq_true_eq] at h
        obtain ⟨h1, h2, h3⟩ := h
        refine ⟨c, ds.dropLast, h1, h2, by simpa using h3, Or.inr ?_⟩
        obtain ⟨ys, rfl⟩ := List.getLast?_eq_some_iff.1 hl
        rw [List.dropLast_concat, e]
        rfl
      · simp only [hl, if_false, decide_eq_true_eq] at h
        obtain ⟨h1, h2, h3⟩ := h
        exact ⟨c, ds, h1, h2, by simpa using h3, Or.inl e⟩

theorem isVersionLine_of_defines {l : Text} (h : DefinesVersion l) : isVersionLine l = true := by
  obtain ⟨c, ds, h1, h2, h3, h4⟩ := h
  rcases h4 with e | e
  · have hd : l.dropPrefix? marker = some (c :: ds) := List.dropPrefix?_eq_some_iff.2 ⟨marker, e, by simp⟩
    have hl : ds.getLast? ≠ some '\n' := fun hl => by
      obtain ⟨ys, rfl⟩ := List.getLast?_eq_some_iff.1 hl
      exact absurd (h3 '\n' (by simp)) (by decide)
    unfold isVersionLine
    rw [hd]
    simp only [hl, if_false, decide_eq_true_eq]
    exact ⟨h1, h2, by simpa using h3⟩
  · have hd : l.dropPrefix? marker = some (c :: (ds ++ ['\n'])) := List.dropPrefix?_eq_some_iff.2 ⟨marker, e, by simp⟩
    unfold isVersionLine
    rw [hd]
    simp only [List.getLast?_append, List.getLast?_singleton, Option.some_or, if_true, List.dropLast_concat, decide_eq_true_eq]
    exact ⟨h1, h2, by simpa using h3⟩

/-- the lines before the version in the examples: a comment, and a line without number -/
def headerStart : Text := "/* cuda.h */\n#define CUDA_VERSION\n".toList

theorem headerStart_none : ∀ l ∈ lines headerStart, ¬ DefinesVersion l := by
  have h : ∀ l ∈ lines headerStart, isVersionLine l = false := by decide
  intro l hl hd
  have := isVersionLine_of_defines hd
  rw [h l hl] at this
  exact absurd this (by decide)

/-- **C72** (version from the header).  If neither version file exists, the version is read from the first line
`#define CUDA_VERSION <1000·major + 10·minor + patch>` of `include/cuda.h`; before the number is a space or a tab. -/
theorem header_version (h : Host) (home : Path) (pre post : Text) {sep : Char} (hsep : sep = ' ' ∨ sep = '\t')
    (major minor patch : ℕ) (hM : 1 ≤ major) (hm : minor < 100)
    (hp : patch < 10) (htxt : h.read (home ++ ["version.txt"]) = none) (hjson : h.read (home ++ ["version.json"]) = none)
    (hhead : h.read (home ++ ["include", "cuda.h"]) = some (pre ++ (versionLine sep (cudaNumber major minor patch) ++ post)))
    (hend : pre = [] ∨ pre.getLast? = some '\n') (hnone : ∀ l ∈ lines pre, ¬ DefinesVersion l) :
    getCudaVersion h home = .ok ⟨major, some minor, some patch⟩ := by
  have hfirst : ∀ l ∈ lines pre, isVersionLine l = false := fun l hl => by
    cases hv : isVersionLine l with
    | false => rfl
    | true => exact absurd (defines_of_isVersionLine hv) (hnone l hl)
  set n := cudaNumber major minor patch with hn
  have hne : n ≠ 0 := by rw [hn]; unfold cudaNumber; omega
  have hnl : '\n' ∉ marker ++ sep :: decimal n := by
    have h1 : '\n' ∉ marker := by decide
    have h2 := (decimal_digits n).not_mem.2.2
    have h3 : '\n' ≠ sep := by rcases hsep with rfl | rfl <;> decide
    simp [h1, h2, h3]
  have hlines : lines (pre ++ (versionLine sep n ++ post)) = lines pre ++ versionLine sep n :: lines post := by
    rw [lines_append hend]
    have e : versionLine sep n ++ post = (marker ++ sep :: decimal n) ++ '\n' :: post := by rw [versionLine_eq]; simp
    rw [e, lines_line hnl, versionLine_eq]
    simp
  have hfind : (lines (pre ++ (versionLine sep n ++ post))).find? isVersionLine = some (versionLine sep n) := by
    rw [hlines, List.find?_append, List.find?_eq_none.2 (by simpa using hfirst)]
    simp [isVersionLine_versionLine hsep]
  obtain ⟨ds, hlt, -, hdec, hval⟩ := decimal_eq n
  -- the four or more digits
  have hbig : 1000 ≤ n := by rw [hn]; unfold cudaNumber; omega
  obtain ⟨a, b, c, r, rfl, hr⟩ : ∃ a b c r, ds = a :: b :: c :: r ∧ r ≠ [] := by
    match ds, hlt, hval with
    | [], _, hv => simp at hv; omega
    | [a], hl, hv => have := hl a (by simp); simp at hv; omega
    | [a, b], hl, hv =>
      have := hl a (by simp); have := hl b (by simp)
      simp [Nat.ofDigits_cons] at hv; omega
    | [a, b, c], hl, hv =>
      have := hl a (by simp); have := hl b (by simp); have := hl c (by simp)
      simp [Nat.ofDigits_cons] at hv; omega
    | a :: b :: c :: d :: r, _, _ => exact ⟨a, b, c, d :: r, rfl, by simp⟩
  have ha := hlt a (by simp)
  have hb := hlt b (by simp)
  have hc := hlt c (by simp)
  have hrl : ∀ d ∈ r, d < 10 := fun d hd => hlt d (by simp [hd])
  have hv : a + 10 * (b + 10 * (c + 10 * Nat.ofDigits 10 r)) = 1000 * major + 10 * minor + patch := by
    have := hval
    simp only [Nat.ofDigits_cons, Nat.cast_id] at this
    rw [this, hn, cudaNumber]
  have e1 : Nat.ofDigits 10 r = major := by omega
  have e2 : c * 10 + b = minor := by omega
  have e3 : a = patch := by omega
  set R : Text := r.reverse.map Nat.digitChar with hR
  have hdR : Digits R := ⟨r, hrl, rfl⟩
  have hd2 : Digits [Nat.digitChar c, Nat.digitChar b] := ⟨[b, c], by simp [hb, hc], rfl⟩
  have hd1 : Digits [Nat.digitChar a] := ⟨[a], by simp [ha], rfl⟩
  have hdecimal : decimal n = R ++ [Nat.digitChar c, Nat.digitChar b, Nat.digitChar a] := by
    rw [hdec, hR]
    simp
  have hstring : headerVersion (some (pre ++ (versionLine sep n ++ post))) =
      .ok (R ++ '.' :: ([Nat.digitChar c, Nat.digitChar b] ++ '.' :: [Nat.digitChar a])) := by
    unfold headerVersion
    simp only [hfind, words_versionLine hsep, Option.getD_some]
    rw [hdecimal]
    have t1 : allButLast 3 (R ++ [Nat.digitChar c, Nat.digitChar b, Nat.digitChar a]) = R :=
      allButLast_append _ _ rfl
    have t2 : lastChars 3 (R ++ [Nat.digitChar c, Nat.digitChar b, Nat.digitChar a]) =
        [Nat.digitChar c, Nat.digitChar b, Nat.digitChar a] := lastChars_append _ _ rfl
    rw [t1, t2]
    have t0 : R ++ '.' :: [Nat.digitChar c, Nat.digitChar b, Nat.digitChar a] =
        (R ++ ['.', Nat.digitChar c, Nat.digitChar b]) ++ [Nat.digitChar a] := by simp
    rw [t0]
    have t3 : allButLast 1 ((R ++ ['.', Nat.digitChar c, Nat.digitChar b]) ++ [Nat.digitChar a]) =
        R ++ ['.', Nat.digitChar c, Nat.digitChar b] := allButLast_append _ _ rfl
    have t4 : lastChars 1 ((R ++ ['.', Nat.digitChar c, Nat.digitChar b]) ++ [Nat.digitChar a]) = [Nat.digitChar a] :=
      lastChars_append _ _ rfl
    rw [t3, t4]
    simp
  have i1 : int R = .ok major := by
    have := int_digits hrl hr [] (by simp)
    rw [List.append_nil] at this
    rw [hR, this, e1]
  have i2 : int [Nat.digitChar c, Nat.digitChar b] = .ok minor := by
    have := int_digits (ds := [b, c]) (by simp [hb, hc]) (by simp) [] (by simp)
    have hh : Nat.ofDigits 10 [b, c] = minor := by simp [Nat.ofDigits_cons]; omega
    rw [hh] at this
    simpa using this
  have i3 : int [Nat.digitChar a] = .ok patch := by
    have := int_digits (ds := [a]) (by simp [ha]) (by simp) [] (by simp)
    have hh : Nat.ofDigits 10 [a] = patch := by simp [e3]
    rw [hh] at this
    simpa using this
  unfold getCudaVersion
  rw [htxt, hjson, hhead]
  show (headerVersion (some (pre ++ (versionLine sep n ++ post))) >>= parseVersion) = _
  rw [hstring]
  show parseVersion _ = _
  refine parse_three hdR.not_mem.1 hd2.not_mem.1 hd1.not_mem.1 i1 i2 i3 ?_
  rw [split_none]
  · rfl
  · have h1 := hdR.not_mem.2.1
    have h2 := hd2.not_mem.2.1
    have h3 := hd1.not_mem.2.1
    simp only [List.mem_append, List.mem_cons, List.not_mem_nil, or_false] at *
    rintro (h' | h' | h' | h' | h')
    · exact h1 h'
    · exact absurd h' (by decide)
    · exact h2 h'
    · exact absurd h' (by decide)
    · exact h3 h'

def headerText : Text := headerStart ++ (versionLine ' ' (cudaNumber 11 3 1) ++ "#endif\n".toList)

/-- The only file is the header. -/
def headerFiles (p : Path) : Option Text := if p = ["opt", "cuda", "include", "cuda.h"] then some headerText else none

theorem headerRead : headerFiles (["opt", "cuda"] ++ ["include", "cuda.h"]) = some (headerStart ++
    (versionLine ' ' (cudaNumber 11 3 1) ++ "#endif\n".toList)) := if_pos rfl

theorem headerRead_none : headerFiles (["opt", "cuda"] ++ ["version.txt"]) = none ∧
    headerFiles (["opt", "cuda"] ++ ["version.json"]) = none := ⟨if_neg (by decide), if_neg (by decide)⟩

/-- A host with CUDA 11.3.1 in `/opt/cuda`, whose version is only in the header. -/
def headerHost : Host where
  env := fun v => if v = "CUDA_HOME" then some ["opt", "cuda"] else none
  searchPath := some [["usr", "bin"]]
  pathExists := fun p => p ∈ [["opt", "cuda"], ["opt", "cuda", "bin", "nvcc"], ["opt", "cuda", "include"],
    ["opt", "cuda", "lib64"]]
  absPath := id
  windows := false
  is64 := true
  read := headerFiles
  jsonVersion := fun _ => .error .valueError

theorem headerHost_version : getCudaVersion headerHost ["opt", "cuda"] = .ok ⟨11, some 3, some 1⟩ :=
  header_version headerHost ["opt", "cuda"] headerStart "#endif\n".toList (Or.inl rfl) 11 3 1 (by decide) (by decide) (by decide)
    headerRead_none.1 headerRead_none.2 headerRead (Or.inr (by decide)) headerStart_none

/-- **C72** (`info`).  `info()` shows a version exactly if it is the version of the CUDA toolkit that was found, and shows
`not found` exactly if none was found. -/
theorem info_shows_version (h : Host) (a b c : ℕ) :
    (infoVersion h = .ok (some (a, b, c)) ↔ ∃ cuda, locateCuda h = .ok (some cuda) ∧ cuda.version = ⟨a, some b, some c⟩) ∧
    (infoVersion h = .ok none ↔ locateCuda h = .ok none) := by
  unfold infoVersion
  cases hc : locateCuda h with
  | error e => exact ⟨⟨fun e' => by simp [bind, Except.bind] at e', by simp⟩, ⟨fun e' => by simp [bind, Except.bind] at e', by simp⟩⟩
  | ok r =>
    cases r with
    | none => exact ⟨⟨fun e' => by simp [bind, Except.bind] at e', by simp⟩, ⟨fun _ => rfl, fun _ => rfl⟩⟩
    | some cuda =>
      obtain ⟨p1, p2, p3, p4, ⟨M, m, q⟩⟩ := cuda
      cases m <;> cases q <;> simp [bind, Except.bind]

/-- **C72** (version from `version.txt`).  A file `CUDA Version a.b.c` gives `a.b.c`, whatever else is there
and whatever ends of lines and tabs come after it. -/
theorem txt_version (h : Host) (home : Path) (a b c : ℕ) (tail : Text) (htail : ∀ x ∈ tail, x = '\n' ∨ x = '\r' ∨ x = '\t')
    (htxt : h.read (home ++ ["version.txt"]) = some ("CUDA Version ".toList ++ dotted a b c ++ tail)) :
    getCudaVersion h home = .ok ⟨a, some b, some c⟩ := by
  have ha := (decimal_digits a).not_mem
  have hb := (decimal_digits b).not_mem
  have hc := (decimal_digits c).not_mem
  unfold getCudaVersion
  rw [htxt]
  show parseVersion _ = _
  have hdot : '.' ∉ tail := fun h' => by simpa using htail _ h'
  have hsp : ' ' ∉ tail := fun h' => by simpa using htail _ h'
  have hcd : '.' ∉ decimal c ++ tail := by simp [hc.1, hdot]
  refine parse_three (a := decimal a) (b := decimal b) (c := decimal c ++ tail) ha.1 hb.1 hcd
    (by simpa using int_decimal a [] (by simp)) (by simpa using int_decimal b [] (by simp))
    (int_decimal c tail fun x hx => by rcases htail x hx with rfl | rfl | rfl <;> decide) ?_
  have e : "CUDA Version ".toList ++ dotted a b c ++ tail = "CUDA".toList ++ ' ' :: ("Version".toList ++ ' ' ::
      (decimal a ++ '.' :: (decimal b ++ '.' :: (decimal c ++ tail)))) := by
    have : "CUDA Version ".toList = "CUDA".toList ++ ' ' :: ("Version".toList ++ [' ']) := by decide
    rw [this]
    unfold dotted
    simp
  rw [e, split_append (by decide), split_append (by decide), split_none]
  · rfl
  · simp only [List.mem_append, List.mem_cons, List.not_mem_nil, or_false] at *
    rintro (h' | h' | h' | h' | h' | h')
    · exact ha.2.1 h'
    · exact absurd h' (by decide)
    · exact hb.2.1 h'
    · exact absurd h' (by decide)
    · exact hc.2.1 h'
    · exact hsp h'

/-- **C72** (refuted).  A version of two parts is read without error, and then `info()` raises `TypeError`. -/
theorem two_part_version (h : Host) (a b : ℕ) (home : Path) (henv : h.env "CUDA_HOME" = some home)
    (hhome : h.pathExists home = true) (hnvcc : h.pathExists (home ++ ["bin", nvccName h]) = true)
    (hinc : h.pathExists (home ++ ["include"]) = true) (hlib : h.pathExists (home ++ ["lib"]) = true) (hw : h.windows = false)
    (htxt : h.read (home ++ ["version.txt"]) = some ("CUDA Version ".toList ++ decimal a ++ '.' :: decimal b)) :
    getCudaVersion h home = .ok ⟨a, some b, none⟩ ∧ infoVersion h = .error .typeError := by
  have ha := (decimal_digits a).not_mem
  have hb := (decimal_digits b).not_mem
  have hv : getCudaVersion h home = .ok ⟨a, some b, none⟩ := by
    unfold getCudaVersion
    rw [htxt]
    show parseVersion _ = _
    have e : "CUDA Version ".toList ++ decimal a ++ '.' :: decimal b = "CUDA".toList ++ ' ' :: ("Version".toList ++ ' ' ::
        (decimal a ++ '.' :: decimal b)) := by
      have : "CUDA Version ".toList = "CUDA".toList ++ ' ' :: ("Version".toList ++ [' ']) := by decide
      rw [this]
      simp
    have hs : ' ' ∉ decimal a ++ '.' :: decimal b := by
      simp only [List.mem_append, List.mem_cons]
      rintro (h' | h' | h')
      · exact ha.2.1 h'
      · exact absurd h' (by decide)
      · exact hb.2.1 h'
    have ia : int (decimal a) = .ok a := by simpa using int_decimal a [] (by simp)
    have ib : int (decimal b) = .ok b := by simpa using int_decimal b [] (by simp)
    unfold parseVersion
    rw [e, split_append (by decide), split_append (by decide), split_none hs]
    simp only [List.getLast?_cons_cons, List.getLast?_singleton, Option.getD_some]
    rw [split_append ha.1, split_none hb.1]
    simp only [List.mapM_cons, List.mapM_nil, ia, ib]
    rfl
  refine ⟨hv, ?_⟩
  have hf : findHome h = .ok (some (home, home ++ ["bin", nvccName h])) := by
    unfold findHome searchEnv
    simp [henv, hhome, hnvcc]
  have hl : findLib h home = .ok (home ++ ["lib"]) := by
    unfold findLib
    simp [hlib, hw]
    rfl
  unfold infoVersion locateCuda
  rw [hf]
  simp only [bind, Except.bind, hinc, Bool.not_true, Bool.false_eq_true, if_false, hl, hv]

example : infoVersion { headerHost with
    pathExists := fun p => p ∈ [["opt", "cuda"], ["opt", "cuda", "bin", "nvcc"], ["opt", "cuda", "include"], ["opt", "cuda", "lib"]]
    read := fun p => if p = ["opt", "cuda", "version.txt"] then some ("CUDA Version ".toList ++ decimal 7 ++ '.' :: decimal 5)
      else none } = .error .typeError :=
  (two_part_version _ 7 5 ["opt", "cuda"] rfl (by decide) (by decide) (by decide) (by decide) rfl (by simp)).2

/-- What `searchEnv` returns: the first of the variables whose directory has `nvcc` in it. -/
theorem searchEnv_spec (h : Host) (name : String) (vars : List String) (home nvcc : Path) :
    searchEnv h name vars = some (home, nvcc) ↔ ∃ pre v post, vars = pre ++ v :: post ∧ h.env v = some home ∧
      nvcc = home ++ ["bin", name] ∧ h.pathExists home = true ∧ h.pathExists nvcc = true ∧
      ∀ u ∈ pre, ∀ d, h.env u = some d → h.pathExists d = true → h.pathExists (d ++ ["bin", name]) = false := by
  induction vars with
  | nil => simp [searchEnv]
  | cons v rest ih =>
    have skip : (∀ d, h.env v = some d → h.pathExists d = true → h.pathExists (d ++ ["bin", name]) = false) →
        (searchEnv h name rest = some (home, nvcc) ↔ ∃ pre v' post, v :: rest = pre ++ v' :: post ∧ h.env v' = some home ∧
          nvcc = home ++ ["bin", name] ∧ h.pathExists home = true ∧ h.pathExists nvcc = true ∧
          ∀ u ∈ pre, ∀ d, h.env u = some d → h.pathExists d = true → h.pathExists (d ++ ["bin", name]) = false) := by
      intro hv
      rw [ih]
      constructor
      · rintro ⟨pre, v', post, e, h1, h2, h3, h4, h5⟩
        refine ⟨v :: pre, v', post, by simp [e], h1, h2, h3, h4, ?_⟩
        intro u hu
        rcases List.mem_cons.1 hu with rfl | hu
        · exact hv
        · exact h5 u hu
      · rintro ⟨pre, v', post, e, h1, h2, h3, h4, h5⟩
        cases pre with
        | nil =>
          simp only [List.nil_append, List.cons.injEq] at e
          obtain ⟨rfl, -⟩ := e
          have := hv home h1 h3
          rw [← h2, h4] at this
          simp at this
        | cons p ps =>
          simp only [List.cons_append, List.cons.injEq] at e
          exact ⟨ps, v', post, e.2, h1, h2, h3, h4, fun u hu => h5 u (by simp [hu])⟩
    rw [searchEnv]
    cases hv : h.env v with
    | none => exact skip (by simp [hv])
    | some d =>
      by_cases h1 : h.pathExists d = true
      · by_cases h2 : h.pathExists (d ++ ["bin", name]) = true
        · simp only [h1, h2, Bool.not_true, Bool.false_eq_true, if_false, Option.some.injEq, Prod.mk.injEq]
          constructor
          · rintro ⟨rfl, rfl⟩
            exact ⟨[], v, rest, rfl, hv, rfl, h1, h2, by simp⟩
          · rintro ⟨pre, v', post, e, g1, g2, g3, g4, g5⟩
            cases pre with
            | nil =>
              simp only [List.nil_append, List.cons.injEq] at e
              obtain ⟨rfl, -⟩ := e
              rw [hv] at g1
              injection g1 with g1
              subst g1
              exact ⟨rfl, g2.symm⟩
            | cons p ps =>
              simp only [List.cons_append, List.cons.injEq] at e
              have := g5 p (by simp) d (by rw [← e.1]; exact hv) h1
              rw [h2] at this
              simp at this
        · have h2' : h.pathExists (d ++ ["bin", name]) = false := by simpa using h2
          simp only [h1, h2', Bool.not_true, Bool.not_false, Bool.false_eq_true, if_false, if_true]
          refine skip ?_
          intro d' hd' _
          rw [hv] at hd'
          injection hd' with hd'
          rw [← hd', h2']
      · have h1' : h.pathExists d = false := by simpa using h1
        simp only [h1', Bool.not_false, if_true]
        refine skip ?_
        intro d' hd' hd''
        rw [hv] at hd'
        injection hd' with hd'
        rw [← hd', h1'] at hd''
        simp at hd''

theorem findInPath_exists (h : Host) (habs : ∀ p, h.pathExists (h.absPath p) = h.pathExists p) (name : String) (dirs : List Path)
    (nvcc : Path) (e : findInPath h name dirs = some nvcc) : h.pathExists nvcc = true := by
  induction dirs with
  | nil => simp [findInPath] at e
  | cons d rest ih =>
    rw [findInPath] at e
    split at e
    · rename_i hd
      injection e with e
      rw [← e, habs, hd]
    · exact ih e

theorem findLib_exists (h : Host) (home lib : Path) (e : findLib h home = .ok lib) : h.pathExists lib = true := by
  have key : ∀ base, h.pathExists base = true → (if h.windows = true then
      (if h.pathExists (base ++ [if h.is64 = true then "x64" else "x86"]) = true then
        (.ok (base ++ [if h.is64 = true then "x64" else "x86"]) : Except Exc Path) else .error .environmentError)
      else .ok base) = .ok lib → h.pathExists lib = true := by
    intro base hb e
    generalize base ++ [if h.is64 = true then "x64" else "x86"] = sub at e
    split at e
    · split at e
      · rename_i hx; injection e with e; rw [← e]; exact hx
      · simp at e
    · injection e with e; rw [← e]; exact hb
  unfold findLib at e
  by_cases h1 : h.pathExists (home ++ ["lib"]) = true
  · rw [if_pos h1] at e
    exact key _ h1 e
  · rw [if_neg h1] at e
    by_cases h2 : h.pathExists (home ++ ["lib64"]) = true
    · rw [if_pos h2] at e
      exact key _ h2 e
    · rw [if_neg h2] at e
      simp [bind, Except.bind] at e

/-- **C72** (soundness).  Every path in the dictionary exists, `include` and the version belong to `home`, and `home` is
the first of `CUDA_HOME`, `CUDA_ROOT`, `CUDA_PATH` with a compiler in it, or else two levels above the compiler on `PATH`. -/
theorem locate_sound (h : Host) (habs : ∀ p, h.pathExists (h.absPath p) = h.pathExists p) (c : Cuda)
    (e : locateCuda h = .ok (some c)) :
    h.pathExists c.nvcc = true ∧ h.pathExists c.includeDir = true ∧ h.pathExists c.lib = true ∧
    c.includeDir = c.home ++ ["include"] ∧ getCudaVersion h c.home = .ok c.version ∧
    ((∃ pre v post, ["CUDA_HOME", "CUDA_ROOT", "CUDA_PATH"] = pre ++ v :: post ∧ h.env v = some c.home ∧
        c.nvcc = c.home ++ ["bin", nvccName h] ∧
        ∀ u ∈ pre, ∀ d, h.env u = some d → h.pathExists d = true → h.pathExists (d ++ ["bin", nvccName h]) = false) ∨
      ((∀ u ∈ ["CUDA_HOME", "CUDA_ROOT", "CUDA_PATH"], ∀ d, h.env u = some d → h.pathExists d = true →
          h.pathExists (d ++ ["bin", nvccName h]) = false) ∧
        ∃ dirs, h.searchPath = some dirs ∧ findInPath h (nvccName h) dirs = some c.nvcc ∧
          c.home = c.nvcc.dropLast.dropLast)) := by
  unfold locateCuda at e
  cases hf : findHome h with
  | error x => rw [hf] at e; simp [bind, Except.bind] at e
  | ok r =>
    rw [hf] at e
    cases r with
    | none => simp [bind, Except.bind] at e
    | some hn =>
      obtain ⟨home, nvcc⟩ := hn
      simp only [bind, Except.bind] at e
      by_cases hinc : h.pathExists (home ++ ["include"]) = true
      swap
      · have : h.pathExists (home ++ ["include"]) = false := by simpa using hinc
        simp [this] at e
      simp only [hinc, Bool.not_true, Bool.false_eq_true, if_false] at e
      cases hl : findLib h home with
      | error x => simp [hl] at e
      | ok lib =>
        simp only [hl] at e
        cases hv : getCudaVersion h home with
        | error x => simp [hv] at e
        | ok version =>
          simp only [hv] at e
          injection e with e
          injection e with e
          subst e
          unfold findHome at hf
          cases hs : searchEnv h (nvccName h) ["CUDA_HOME", "CUDA_ROOT", "CUDA_PATH"] with
          | some r =>
            rw [hs] at hf
            injection hf with hf
            injection hf with hf
            subst hf
            obtain ⟨pre, v, post, g0, g1, g2, g3, g4, g5⟩ := (searchEnv_spec h _ _ _ _).1 hs
            exact ⟨g4, hinc, findLib_exists h home lib hl, rfl, hv, Or.inl ⟨pre, v, post, g0, g1, g2, g5⟩⟩
          | none =>
            rw [hs] at hf
            cases hp : h.searchPath with
            | none => simp [hp] at hf
            | some dirs =>
              simp only [hp] at hf
              cases hfi : findInPath h (nvccName h) dirs with
              | none => simp [hfi] at hf
              | some q =>
                simp only [hfi] at hf
                injection hf with hf
                injection hf with hf
                injection hf with hf1 hf2
                subst hf2
                refine ⟨findInPath_exists h habs _ _ _ hfi, hinc, findLib_exists h home lib hl, rfl, hv,
                  Or.inr ⟨?_, dirs, rfl, hfi, hf1.symm⟩⟩
                intro u hu d hd hd'
                by_contra hne
                have hne' : h.pathExists (d ++ ["bin", nvccName h]) = true := by simpa using hne
                have key : ∀ vars, u ∈ vars → searchEnv h (nvccName h) vars ≠ none := by
                  intro vars
                  induction vars with
                  | nil => simp
                  | cons w ws ih =>
                    intro hmem
                    rw [searchEnv]
                    rcases List.mem_cons.1 hmem with rfl | hmem
                    · simp [hd, hd', hne']
                    · have := ih hmem
                      split
                      · exact this
                      · split
                        · exact this
                        · split
                          · exact this
                          · simp
                exact key _ hu hs

/-- the hypotheses are met, with the installation of `headerHost` -/
theorem headerHost_located : locateCuda headerHost = .ok (some ⟨["opt", "cuda"], ["opt", "cuda", "bin", "nvcc"], ["opt", "cuda", "include"],
    ["opt", "cuda", "lib64"], ⟨11, some 3, some 1⟩⟩) := by
  have hv : getCudaVersion headerHost ["opt", "cuda"] = .ok ⟨11, some 3, some 1⟩ :=
    headerHost_version
  have hf : findHome headerHost = .ok (some (["opt", "cuda"], ["opt", "cuda", "bin", "nvcc"])) := by decide
  have hl : findLib headerHost ["opt", "cuda"] = .ok ["opt", "cuda", "lib64"] := by decide
  have hi : headerHost.pathExists (["opt", "cuda"] ++ ["include"]) = true := by decide
  unfold locateCuda
  rw [hf]
  simp only [bind, Except.bind, hi, hl, hv]
  rfl

example : infoVersion headerHost = .ok (some (11, 3, 1)) := (info_shows_version headerHost 11 3 1).1.2 ⟨_, headerHost_located, rfl⟩

/-- **C72** (completeness).  A complete installation named by `CUDA_HOME` is found, whatever the rest of the host. -/
theorem locate_complete (h : Host) (home : Path) (v : Version) (henv : h.env "CUDA_HOME" = some home)
    (hhome : h.pathExists home = true) (hnvcc : h.pathExists (home ++ ["bin", "nvcc"]) = true)
    (hinc : h.pathExists (home ++ ["include"]) = true) (hlib : h.pathExists (home ++ ["lib"]) = true ∨ h.pathExists (home ++ ["lib64"]) = true)
    (hw : h.windows = false) (hv : getCudaVersion h home = .ok v) :
    ∃ lib, locateCuda h = .ok (some ⟨home, home ++ ["bin", "nvcc"], home ++ ["include"], lib, v⟩) := by
  have hname : nvccName h = "nvcc" := by simp [nvccName, hw]
  have hf : findHome h = .ok (some (home, home ++ ["bin", "nvcc"])) := by
    unfold findHome searchEnv
    simp [henv, hhome, hname, hnvcc]
  obtain ⟨lib, hl⟩ : ∃ lib, findLib h home = .ok lib := by
    unfold findLib
    by_cases h1 : h.pathExists (home ++ ["lib"]) = true
    · exact ⟨home ++ ["lib"], by simp only [h1, hw, if_true]; rfl⟩
    · exact ⟨home ++ ["lib64"], by simp only [h1, hlib.resolve_left h1, hw, if_true, if_false]; rfl⟩
  refine ⟨lib, ?_⟩
  unfold locateCuda
  rw [hf]
  simp only [bind, Except.bind, hinc, Bool.not_true, Bool.false_eq_true, if_false, hl, hv]

example : ∃ lib, locateCuda headerHost = .ok (some ⟨["opt", "cuda"], ["opt", "cuda", "bin", "nvcc"],
    ["opt", "cuda", "include"], lib, ⟨11, some 3, some 1⟩⟩) :=
  locate_complete headerHost ["opt", "cuda"] _ (by decide) (by decide) (by decide) (by decide) (Or.inr (by decide)) rfl
    (headerHost_version)

/-- **C72** (refuted).  Without CUDA and without the variable `PATH`, `locate_cuda` raises `KeyError`; the documentation
promises an empty dictionary. -/
theorem no_path_key_error (h : Host) (henv : ∀ v, h.env v = none) (hp : h.searchPath = none) :
    locateCuda h = .error .keyError ∧ infoVersion h = .error .keyError := by
  have hf : findHome h = .error .keyError := by
    unfold findHome
    simp [searchEnv, henv, hp]
  have : locateCuda h = .error .keyError := by
    unfold locateCuda
    rw [hf]
    rfl
  refine ⟨this, ?_⟩
  unfold infoVersion
  rw [this]
  rfl

example : locateCuda { headerHost with env := fun _ => none, searchPath := none } = .error .keyError :=
  (no_path_key_error _ (fun _ => rfl) rfl).1

/-- **C72** (refuted).  If the directory `include` is missing beside the compiler, the result is the empty dictionary, not
the documented `EnvironmentError`, and whatever installations the later variables name are not looked at. -/
theorem missing_include_silent (h : Host) (home : Path) (henv : h.env "CUDA_HOME" = some home) (hhome : h.pathExists home = true)
    (hnvcc : h.pathExists (home ++ ["bin", nvccName h]) = true) (hinc : h.pathExists (home ++ ["include"]) = false) :
    locateCuda h = .ok none := by
  have hf : findHome h = .ok (some (home, home ++ ["bin", nvccName h])) := by
    unfold findHome searchEnv
    simp [henv, hhome, hnvcc]
  unfold locateCuda
  rw [hf]
  simp only [bind, Except.bind, hinc, Bool.not_false, if_true]

/-- A host where `CUDA_HOME` names a directory with a compiler only and `CUDA_ROOT` a complete installation. -/
def shadowHost : Host := { headerHost with
  env := fun v => if v = "CUDA_HOME" then some ["usr"] else if v = "CUDA_ROOT" then some ["opt", "cuda"] else none
  pathExists := fun p => p ∈ [["usr"], ["usr", "bin", "nvcc"]] || headerHost.pathExists p }

/-- **C72** (refuted).  The complete installation named by `CUDA_ROOT` is hidden by the incomplete one. -/
theorem incomplete_hides_complete : locateCuda shadowHost = .ok none ∧
    ∃ c, locateCuda { shadowHost with env := fun v => if v = "CUDA_HOME" then none else shadowHost.env v } = .ok (some c) := by
  refine ⟨missing_include_silent shadowHost ["usr"] (by decide) (by decide) (by decide) (by decide), ?_⟩
  set h' : Host := { shadowHost with env := fun v => if v = "CUDA_HOME" then none else shadowHost.env v } with hh
  have hv : getCudaVersion h' ["opt", "cuda"] = .ok ⟨11, some 3, some 1⟩ :=
    header_version h' ["opt", "cuda"] headerStart "#endif\n".toList (Or.inl rfl) 11 3 1 (by decide) (by decide) (by decide)
      headerRead_none.1 headerRead_none.2 headerRead (Or.inr (by decide)) headerStart_none
  have hf : findHome h' = .ok (some (["opt", "cuda"], ["opt", "cuda", "bin", "nvcc"])) := by decide
  have hl : findLib h' ["opt", "cuda"] = .ok ["opt", "cuda", "lib64"] := by decide
  have hi : h'.pathExists (["opt", "cuda"] ++ ["include"]) = true := by decide
  refine ⟨⟨["opt", "cuda"], ["opt", "cuda", "bin", "nvcc"], ["opt", "cuda", "include"],
    ["opt", "cuda", "lib64"], ⟨11, some 3, some 1⟩⟩, ?_⟩
  unfold locateCuda
  rw [hf]
  simp only [bind, Except.bind, hi, hl, hv]
  rfl

/-- **C72** (refuted).  With a compiler on `PATH` (as packaged by Linux distributions, in `/usr/bin`) and no version file,
`locate_cuda` and `info` raise `FileNotFoundError`; the documentation names no such error. -/
theorem packaged_compiler_raises (h : Host) (henv : ∀ v, h.env v = none) (hw : h.windows = false) (habs : ∀ p, h.absPath p = p)
    (hp : h.searchPath = some [["usr", "bin"]]) (hn : h.pathExists ["usr", "bin", "nvcc"] = true)
    (hi : h.pathExists ["usr", "include"] = true) (hl : h.pathExists ["usr", "lib"] = true) (hread : ∀ p, h.read p = none) :
    locateCuda h = .error .fileNotFound ∧ infoVersion h = .error .fileNotFound := by
  have hname : nvccName h = "nvcc" := by simp [nvccName, hw]
  have hf : findHome h = .ok (some (["usr"], ["usr", "bin", "nvcc"])) := by
    unfold findHome
    simp [searchEnv, henv, hp, findInPath, hname, hn, habs]
  have hlib : findLib h ["usr"] = .ok ["usr", "lib"] := by
    unfold findLib
    simp [hl, hw]
    rfl
  have hv : getCudaVersion h ["usr"] = .error .fileNotFound := by
    unfold getCudaVersion
    simp only [hread]
    rfl
  have : locateCuda h = .error .fileNotFound := by
    unfold locateCuda
    rw [hf]
    have hi' : h.pathExists (["usr"] ++ ["include"]) = true := hi
    simp only [bind, Except.bind, hi', Bool.not_true, Bool.false_eq_true, if_false, hlib, hv]
  refine ⟨this, ?_⟩
  unfold infoVersion
  rw [this]
  rfl

example : infoVersion { headerHost with
    env := fun _ => none, read := fun _ => none
    pathExists := fun p => p ∈ [["usr", "bin", "nvcc"], ["usr", "include"], ["usr", "lib"]] } = .error .fileNotFound :=
  (packaged_compiler_raises _ (fun _ => rfl) rfl (fun _ => rfl) rfl (by decide) (by decide) (by decide) (fun _ => rfl)).2

end Imate.Props
