import Verif.Spec.DeviceQueries
import Mathlib.Data.List.Infix
import Mathlib.Data.List.DropRight

/-!
# C79: the queries of the processor and the GPU devices
-/

namespace Imate.Props

open Imate.LocateCuda Imate.DeviceQueries Imate.Spec

theorem contains_iff (p : Text) : ∀ s : Text, contains p s = true ↔ p <:+: s
  | [] => by
    unfold contains
    rw [List.isPrefixOf_iff_prefix]
    constructor
    · exact fun h => h.isInfix
    · intro h
      rw [List.infix_nil.1 h]
  | x :: xs => by
    unfold contains
    rw [Bool.or_eq_true, List.isPrefixOf_iff_prefix, contains_iff p xs, List.infix_cons_iff]

theorem splitLast_none {c : Char} : ∀ {s : Text}, c ∉ s → splitLast c s = none
  | [], _ => rfl
  | x :: xs, h => by
    unfold splitLast
    rw [splitLast_none (by simp at h; exact h.2)]
    simp only
    rw [if_neg]
    simp at h
    exact fun e => h.1 e.symm

theorem splitLast_append {c : Char} {b : Text} (hb : c ∉ b) : ∀ a : Text, splitLast c (a ++ c :: b) = some (a, b)
  | [] => by
    show splitLast c (c :: b) = _
    unfold splitLast
    rw [splitLast_none hb]
    simp
  | x :: xs => by
    show splitLast c (x :: (xs ++ c :: b)) = _
    unfold splitLast
    rw [splitLast_append hb xs]

theorem findModelName_skip {pre : List Text} (h : ∀ l ∈ pre, ¬ "model name".toList <:+: l) (ls : List Text) :
    findModelName (pre ++ ls) = findModelName ls := by
  induction pre with
  | nil => rfl
  | cons l pre ih =>
    show findModelName (l :: (pre ++ ls)) = _
    rw [findModelName, if_neg, ih fun x hx => h x (by simp [hx])]
    rw [contains_iff]
    exact h l (by simp)

theorem findModelName_line {key value : Text} {x : Char} (hk : "model name".toList <:+: key) (hv : ':' ∉ value)
    (rest : List Text) : findModelName ((key ++ ':' :: x :: value) :: rest) = if x = ':' then value.drop 1 else value := by
  unfold findModelName
  have h1 : contains "model name".toList (key ++ ':' :: x :: value) = true := by
    rw [contains_iff]
    exact hk.trans (List.prefix_append _ _).isInfix
  rw [if_pos h1]
  unfold subModelName
  by_cases e : x = ':'
  · subst e
    rw [if_pos rfl]
    have h2 := splitLast_append hv (key ++ [':'])
    rw [List.append_assoc] at h2
    have h3 : splitLast ':' (key ++ ':' :: ':' :: value) = some (key ++ [':'], value) := h2
    rw [h3]
    simp only
    rw [if_pos]
    rw [contains_iff]
    exact hk.trans (List.prefix_append _ _).isInfix
  · rw [if_neg e]
    have h2 : ':' ∉ x :: value := by
      intro h
      rcases List.mem_cons.1 h with h | h
      · exact e h.symm
      · exact hv h
    rw [splitLast_append h2 key]
    simp only
    rw [if_pos ((contains_iff _ _).2 hk)]
    rfl

/-- **C79 (processor).**  On Linux the value of the first line for `model name` is returned, if it has no colon. -/
theorem processor_name_partial {m : Machine} (hs : m.system = "Linux".toList) {pre rest : List Text} {key value line : Text}
    (hl : split '\n' (strip m.cpuinfo) = pre ++ line :: rest) (he : Entry key value line)
    (hpre : ∀ l ∈ pre, ¬ "model name".toList <:+: l) (hk : "model name".toList <:+: key) (hv : ':' ∉ value) :
    getProcessorName m = value := by
  unfold getProcessorName
  rw [hs, if_neg (by decide), if_neg (by decide), if_pos rfl, hl, findModelName_skip hpre, he.eq,
    findModelName_line hk hv, if_neg (by decide)]

/-- **C79 (processor).**  Without such a line, as on many ARM processors, the name is empty. -/
theorem processor_name_absent {m : Machine} (hs : m.system = "Linux".toList)
    (h : ∀ l ∈ split '\n' (strip m.cpuinfo), ¬ "model name".toList <:+: l) : getProcessorName m = [] := by
  unfold getProcessorName
  rw [hs, if_neg (by decide), if_neg (by decide), if_pos rfl]
  have := findModelName_skip h []
  rw [List.append_nil] at this
  rw [this]
  rfl

/-- **C79 (negation).**  If the name contains a colon, all up to the last one is lost, and one more character. -/
theorem processor_name_truncated {m : Machine} (hs : m.system = "Linux".toList) {pre rest : List Text}
    {key a b line : Text} {x : Char} (hl : split '\n' (strip m.cpuinfo) = pre ++ line :: rest)
    (he : Entry key (a ++ ':' :: x :: b) line)
    (hpre : ∀ l ∈ pre, ¬ "model name".toList <:+: l) (hk : "model name".toList <:+: key) (hx : x ≠ ':') (hb : ':' ∉ b) :
    getProcessorName m = b ∧ b ≠ a ++ ':' :: x :: b := by
  refine ⟨?_, fun h => ?_⟩
  · have e : line = (key ++ ':' :: ' ' :: a) ++ ':' :: x :: b := by rw [he.eq]; simp
    unfold getProcessorName
    rw [hs, if_neg (by decide), if_neg (by decide), if_pos rfl, hl, findModelName_skip hpre, e,
      findModelName_line (hk.trans (List.prefix_append _ _).isInfix) hb, if_neg hx]
  · have := congrArg List.length h
    simp at this
    omega

/-! ### Shell lines -/

theorem lines_line {l : Text} (hl : '\n' ∉ l) (t : Text) : lines (l ++ '\n' :: t) = (l ++ ['\n']) :: lines t := by
  induction l with
  | nil => show lines ('\n' :: t) = _; rw [lines, if_pos rfl]; rfl
  | cons x l ih =>
    simp only [List.mem_cons, not_or] at hl
    show lines (x :: (l ++ '\n' :: t)) = _
    rw [lines, if_neg (fun e => hl.1 e.symm), ih hl.2]
    rfl

theorem shellLines_unlines : ∀ {ls : List Text}, PlainLines ls → shellLines (unlines ls) = ls
  | [], _ => rfl
  | l :: ls, h => by
    have h1 : unlines (l :: ls) = l ++ '\n' :: unlines ls := by simp [unlines]
    have h2 := shellLines_unlines (ls := ls) fun x hx => h x (by simp [hx])
    unfold shellLines at h2 ⊢
    rw [h1, lines_line (h l (by simp)), List.map_cons, h2]
    congr 1
    rw [List.filter_append, List.filter_eq_self.2]
    · simp
    · intro x hx
      have : x ≠ '\n' := fun e => h l (by simp) (e ▸ hx)
      simpa using this

theorem count_unlines : ∀ {ls : List Text}, PlainLines ls → (unlines ls).count '\n' = ls.length
  | [], _ => rfl
  | l :: ls, h => by
    have h1 : unlines (l :: ls) = l ++ '\n' :: unlines ls := by simp [unlines]
    rw [h1, List.count_append, List.count_eq_zero_of_not_mem (h l (by simp)), List.count_cons_self,
      count_unlines fun x hx => h x (by simp [hx])]
    simp

theorem strip_newline (t : Text) : strip (t ++ ['\n']) = strip t := by
  unfold strip
  by_cases h : ∀ x ∈ t, isSpace x = true
  · have h1 : (t ++ ['\n']).dropWhile isSpace = [] := by
      rw [List.dropWhile_eq_nil_iff]
      intro x hx
      rcases List.mem_append.1 hx with hx | hx
      · exact h x hx
      · simp at hx; subst hx; decide
    rw [h1, List.dropWhile_eq_nil_iff.2 h]
  · push Not at h
    obtain ⟨x, hx, hx'⟩ := h
    have h1 : (t ++ ['\n']).dropWhile isSpace = t.dropWhile isSpace ++ ['\n'] := by
      rw [List.dropWhile_append, if_neg]
      intro h0
      have := List.dropWhile_eq_nil_iff.1 (List.isEmpty_iff.1 h0) x hx
      exact hx' this
    rw [h1, List.reverse_append]
    show (List.dropWhile isSpace ('\n' :: _)).reverse = _
    rw [List.dropWhile_cons_of_pos (by decide)]
    rfl

theorem strip_one (t : Text) : strip (unlines [t]) = strip t := by
  have : unlines [t] = t ++ ['\n'] := by simp [unlines]
  rw [this, strip_newline]

theorem grepI_mentions (p : Text) (l : Text) :
    contains (p.map Char.toLower) (l.map Char.toLower) = true ↔ Mentions p l := contains_iff _ _

theorem entry_value {key value line : Text} (he : Entry key value line) :
    cut3 (grepColon [line]) = [value] := by
  have h1 : line.dropWhile (fun c => decide (c ≠ ':')) = ':' :: ' ' :: value := by
    rw [he.eq, List.dropWhile_append]
    have : List.dropWhile (fun c => decide (c ≠ ':')) key = [] := by
      rw [List.dropWhile_eq_nil_iff]
      intro x hx
      have : x ≠ ':' := fun e => he.key (e ▸ hx)
      simpa using this
    rw [this]
    simp
  unfold cut3 grepColon
  simp only [List.map_cons, List.map_nil, h1]
  rfl

/-- **C79 (no driver).**  When `nvidia-smi` fails, as without a driver, the answers are `not found` and zero. -/
theorem no_driver {m : Machine} (h : (m.smi .plain).1 ≠ 0) :
    getGpuName m = "not found".toList ∧ getNumGpuDevices m = 0 ∧ getNvidiaDriverVersion m = "not found".toList := by
  have hc : ¬ checkNvidiaSmi m = true := by simpa [checkNvidiaSmi] using h
  refine ⟨?_, ?_, ?_⟩
  · unfold getGpuName; rw [if_neg hc]; rfl
  · unfold getNumGpuDevices; rw [if_neg hc]
  · unfold getNvidiaDriverVersion; rw [if_neg hc]; rfl

/-- **C79 (name).**  The value of the first line for the product name is returned. -/
theorem gpu_name {m : Machine} (h : (m.smi .plain).1 = 0) {pre rest : List Text} {key value line : Text}
    (hp : PlainLines (pre ++ line :: rest)) (ht : (m.smi .all).2 = unlines (pre ++ line :: rest))
    (he : Entry key value line) (hpre : ∀ l ∈ pre, ¬ Mentions "Product Name".toList l)
    (hk : Mentions "Product Name".toList line) (hv : Trimmed value) (hv0 : value ≠ []) : getGpuName m = value := by
  have hc : checkNvidiaSmi m = true := by simpa [checkNvidiaSmi] using h
  unfold getGpuName
  rw [if_pos hc, ht, shellLines_unlines hp]
  have h1 : (grepI "Product Name".toList (pre ++ line :: rest)).take 1 = [line] := by
    unfold grepI
    rw [List.filter_append, List.filter_eq_nil_iff.2 fun l hl => by
      rw [grepI_mentions]; exact hpre l hl, List.nil_append, List.filter_cons_of_pos (by rw [grepI_mentions]; exact hk)]
    rfl
  rw [h1, entry_value he]
  unfold orNotFound
  simp only [strip_one]
  rw [hv, if_neg hv0]

/-- **C79 (driver).**  The value of the line for the driver version is returned, if there is one such line. -/
theorem driver_version_partial {m : Machine} (h : (m.smi .plain).1 = 0) {pre rest : List Text} {key value line : Text}
    (hp : PlainLines (pre ++ line :: rest)) (ht : (m.smi .query).2 = unlines (pre ++ line :: rest))
    (he : Entry key value line) (hpre : ∀ l ∈ pre ++ rest, ¬ Mentions "Driver Version".toList l)
    (hk : Mentions "Driver Version".toList line) (hv : Trimmed value) (hv0 : value ≠ []) :
    getNvidiaDriverVersion m = value := by
  have hc : checkNvidiaSmi m = true := by simpa [checkNvidiaSmi] using h
  unfold getNvidiaDriverVersion
  rw [if_pos hc, ht, shellLines_unlines hp]
  have hn : ∀ ls : List Text, (∀ l ∈ ls, ¬ Mentions "Driver Version".toList l) →
      ls.filter (fun l => contains ("Driver Version".toList.map Char.toLower) (l.map Char.toLower)) = [] := fun ls hls =>
    List.filter_eq_nil_iff.2 fun l hl => by rw [grepI_mentions]; exact hls l hl
  have h1 : grepI "Driver Version".toList (pre ++ line :: rest) = [line] := by
    unfold grepI
    rw [List.filter_append, hn pre fun l hl => hpre l (by simp [hl]), List.nil_append,
      List.filter_cons_of_pos (by rw [grepI_mentions]; exact hk), hn rest fun l hl => hpre l (by simp [hl])]
  rw [h1, entry_value he]
  unfold orNotFound
  simp only [strip_one]
  rw [hv, if_neg hv0]

/-- **C79 (not found).**  Without a line for the product name, or for the driver version, `not found` is returned. -/
theorem entry_absent {m : Machine} :
    ((∀ l ∈ shellLines (m.smi .all).2, ¬ Mentions "Product Name".toList l) → getGpuName m = "not found".toList) ∧
    ((∀ l ∈ shellLines (m.smi .query).2, ¬ Mentions "Driver Version".toList l) →
      getNvidiaDriverVersion m = "not found".toList) := by
  have hn : ∀ (p : Text) (ls : List Text), (∀ l ∈ ls, ¬ Mentions p l) → grepI p ls = [] := fun p ls hls =>
    List.filter_eq_nil_iff.2 fun l hl => by rw [grepI_mentions]; exact hls l hl
  constructor
  · intro h
    unfold getGpuName
    rw [hn _ _ h]
    split <;> rfl
  · intro h
    unfold getNvidiaDriverVersion
    rw [hn _ _ h]
    split <;> rfl

/-- **C79 (number of devices).**  The number of printed lines is returned, whatever they are. -/
theorem num_gpu_lines {m : Machine} (h : (m.smi .plain).1 = 0) {ls : List Text} (hp : PlainLines ls)
    (ht : (m.smi .list).2 = unlines ls) : getNumGpuDevices m = ls.length := by
  have hc : checkNvidiaSmi m = true := by simpa [checkNvidiaSmi] using h
  unfold getNumGpuDevices
  rw [if_pos hc, ht, count_unlines hp]

/-- **C79 (number of devices).**  It is the number of devices if and only if each line is for a device. -/
theorem num_gpu_devices_partial {m : Machine} (h : (m.smi .plain).1 = 0) {ls : List Text} (hp : PlainLines ls)
    (ht : (m.smi .list).2 = unlines ls) :
    getNumGpuDevices m = (ls.filter IsDevice).length ↔ ∀ l ∈ ls, IsDevice l = true := by
  rw [num_gpu_lines h hp ht, eq_comm, List.length_filter_eq_length_iff]

/-- **C79 (negation).**  A device that is split into partitions is counted several times. -/
theorem partitions_counted : ∃ m : Machine, (m.smi .plain).1 = 0 ∧ (m.smi .list).1 = 0 ∧
    (m.smi .list).2 = unlines ["GPU 0: A100".toList, "  MIG 3g.20gb Device 0".toList, "  MIG 3g.20gb Device 1".toList] ∧
    getNumGpuDevices m = 3 := by
  refine ⟨⟨fun _ => (0, unlines ["GPU 0: A100".toList, "  MIG 3g.20gb Device 0".toList,
    "  MIG 3g.20gb Device 1".toList]), [], [], [], [], none, none⟩, rfl, rfl, rfl, ?_⟩
  exact num_gpu_lines rfl (ls := ["GPU 0: A100".toList, "  MIG 3g.20gb Device 0".toList, "  MIG 3g.20gb Device 1".toList])
    (by unfold PlainLines; decide +kernel) rfl

/-- **C79 (negation).**  The exit status of `nvidia-smi --list-gpus` is ignored: each line of its error message counts
as a device. -/
theorem failure_counted : ∃ m : Machine, (m.smi .plain).1 = 0 ∧ (m.smi .list).1 ≠ 0 ∧
    (m.smi .list).2 = unlines ["Unable to determine the device handle".toList] ∧ getNumGpuDevices m = 1 := by
  refine ⟨⟨fun
    | .list => (15, unlines ["Unable to determine the device handle".toList])
    | _ => (0, []), [], [], [], [], none, none⟩, rfl, by decide, rfl, ?_⟩
  exact num_gpu_lines rfl (ls := ["Unable to determine the device handle".toList])
    (by unfold PlainLines; decide +kernel) rfl

/-- **C79 (threads).**  Where the system knows which processors the process may use, these are counted. -/
theorem cpu_threads_partial {m : Machine} {cpus : List Nat} (h : m.affinity = some cpus) :
    getNumCpuThreads m = some cpus.length := by
  simp [getNumCpuThreads, h]

/-- **C79 (negation).**  Elsewhere (macOS, Windows) all processors of the machine are counted, or `None` is returned. -/
theorem cpu_threads_all {m : Machine} (h : m.affinity = none) : getNumCpuThreads m = m.cpuCount := by
  simp [getNumCpuThreads, h]

/-- **C79 (restriction).**  Exactly the five variables are set. -/
theorem restrict_environment (env : String → Option String) (x : String) :
    restrictToSingleProcessor env x =
      if x ∈ ["OMP_NUM_THREADS", "OPENBLAS_NUM_THREADS", "MKL_NUM_THREADS", "VECLIB_MAXIMUM_THREADS",
        "NUMEXPR_NUM_THREADS"] then some "1" else env x := by
  unfold restrictToSingleProcessor
  simp only [List.mem_cons, List.not_mem_nil, or_false]
  split_ifs <;> simp_all

/-! ### Non-vacuity -/

/-- A Linux machine with an Intel processor, two devices and a driver. -/
def someMachine : Machine where
  smi := fun
    | .plain => (0, [])
    | .all => (0, unlines ["    Product Name                          : GeForce GTX 1080 Ti".toList,
        "    Product Name                          : Other".toList])
    | .list => (0, unlines ["GPU 0: GeForce".toList, "GPU 1: GeForce".toList])
    | .query => (0, unlines ["Driver Version                            : 460.84".toList])
  system := "Linux".toList
  processor := []
  sysctl := []
  cpuinfo := unlines ["processor\t: 0".toList, "model name\t: Intel(R) Xeon(R)".toList, "stepping\t: 2".toList]
  affinity := some [0, 2]
  cpuCount := some 8

example : getProcessorName someMachine = "Intel(R) Xeon(R)".toList :=
  processor_name_partial (m := someMachine) rfl (pre := ["processor\t: 0".toList]) (rest := ["stepping\t: 2".toList])
    (key := "model name\t".toList) (by decide +kernel) ⟨rfl, by decide +kernel⟩ (by
      intro l hl
      rw [← contains_iff]
      simp only [List.mem_singleton] at hl
      subst hl
      decide +kernel) ((contains_iff _ _).1 (by decide +kernel)) (by decide +kernel)

example : getGpuName someMachine = "GeForce GTX 1080 Ti".toList :=
  gpu_name (m := someMachine) rfl (pre := []) (rest := ["    Product Name                          : Other".toList])
    (key := "    Product Name                          ".toList) (by unfold PlainLines; decide +kernel) rfl ⟨rfl, by decide +kernel⟩
    (by simp) ((grepI_mentions _ _).1 (by decide +kernel)) (by unfold Trimmed; decide +kernel) (by decide +kernel)

example : getNvidiaDriverVersion someMachine = "460.84".toList :=
  driver_version_partial (m := someMachine) rfl (pre := []) (rest := [])
    (key := "Driver Version                            ".toList) (by unfold PlainLines; decide +kernel) rfl ⟨rfl, by decide +kernel⟩
    (by simp) ((grepI_mentions _ _).1 (by decide +kernel)) (by unfold Trimmed; decide +kernel) (by decide +kernel)

example : getNumGpuDevices someMachine = 2 := num_gpu_lines rfl (ls := ["GPU 0: GeForce".toList, "GPU 1: GeForce".toList])
  (by unfold PlainLines; decide +kernel) rfl

/-- A name with a colon. -/
example : ∃ m : Machine, m.cpuinfo = "model name\t: Core: 8x".toList ∧ getProcessorName m = "8x".toList := by
  refine ⟨{ someMachine with cpuinfo := "model name\t: Core: 8x".toList }, rfl, ?_⟩
  exact (processor_name_truncated (m := { someMachine with cpuinfo := "model name\t: Core: 8x".toList }) rfl (pre := [])
    (rest := []) (key := "model name\t".toList) (a := "Core".toList) (x := ' ') (b := "8x".toList) (by decide +kernel)
    ⟨rfl, by decide +kernel⟩ (by simp) ((contains_iff _ _).1 (by decide +kernel)) (by decide +kernel) (by decide +kernel)).1

end Imate.Props
