import Verif.Model.Mem

/-!
# Model of `imate/_random_generator/*.cpp`

64-bit machine words are `BitVec 64` (wrap-around arithmetic, as `uint64_t`).
-/

namespace Imate.Random

/-! ## split_mix_64.cpp -/

/-- Constructor of `SplitMix64`, split_mix_64.cpp:28-47.  `seed` is the signed 64-bit argument,
`clock` the value `get_highres_time_stamp()` would return. -/
def splitMixInit (clock : BitVec 64) (seed : BitVec 64) : BitVec 64 :=
  let s := if 0 ≤ seed.toInt then seed else clock
  (s <<< 32) ||| s

/-- `z ^ (z >> 31)` of the mixed state, split_mix_64.cpp:59-63 (the state has already been
advanced). -/
def splitMixOut (state : BitVec 64) : BitVec 64 :=
  let z := state
  let z := (z ^^^ (z >>> 30)) * 0xbf58476d1ce4e5b9#64
  let z := (z ^^^ (z >>> 27)) * 0x94d049bb133111eb#64
  z ^^^ (z >>> 31)

/-- `SplitMix64::next`, split_mix_64.cpp:57-64: returns the output and the new state. -/
def splitMixNext (state : BitVec 64) : BitVec 64 × BitVec 64 :=
  let state := state + 0x9e3779b97f4a7c15#64
  (splitMixOut state, state)

/-! ## xoshiro_256_star_star.cpp -/

/-- `uint64_t state[4]`. -/
structure Xoshiro where
  s0 : BitVec 64
  s1 : BitVec 64
  s2 : BitVec 64
  s3 : BitVec 64
  deriving DecidableEq

/-- `rotation_left`, xoshiro_256_star_star.cpp:192-197. -/
def rotationLeft (x : BitVec 64) (k : Nat) : BitVec 64 := (x <<< k) ||| (x >>> (64 - k))

/-- The constructor, xoshiro_256_star_star.cpp:33-46: four outputs of `SplitMix64`. -/
def Xoshiro.construct (clock seed : BitVec 64) : Xoshiro :=
  let st := splitMixInit clock seed
  let (a, st) := splitMixNext st
  let (b, st) := splitMixNext st
  let (c, st) := splitMixNext st
  let (d, _) := splitMixNext st
  ⟨a, b, c, d⟩

/-- The value returned by `next`, xoshiro_256_star_star.cpp:75. -/
def Xoshiro.output (x : Xoshiro) : BitVec 64 := rotationLeft (x.s1 * 5#64) 7 * 9#64

/-- The state update of `next`, xoshiro_256_star_star.cpp:77-86, statement by statement. -/
def Xoshiro.step (x : Xoshiro) : Xoshiro :=
  let t := x.s1 <<< 17
  let s2 := x.s2 ^^^ x.s0
  let s3 := x.s3 ^^^ x.s1
  let s1 := x.s1 ^^^ s2
  let s0 := x.s0 ^^^ s3
  let s2 := s2 ^^^ t
  let s3 := rotationLeft s3 45
  ⟨s0, s1, s2, s3⟩

/-- `next`, xoshiro_256_star_star.cpp:73-89. -/
def Xoshiro.next (x : Xoshiro) : BitVec 64 × Xoshiro := (x.output, x.step)

/-- component-wise xor of states, as accumulated in `s0..s3` of `jump` -/
def Xoshiro.xor (x y : Xoshiro) : Xoshiro :=
  ⟨x.s0 ^^^ y.s0, x.s1 ^^^ y.s1, x.s2 ^^^ y.s2, x.s3 ^^^ y.s3⟩

/-- the all-zero state -/
def Xoshiro.zero : Xoshiro := ⟨0, 0, 0, 0⟩

/-- The inner loop of `jump` over the bits `b, b+1, …` of one word of the jump polynomial
(xoshiro_256_star_star.cpp:115-126); `acc` is `(s0,s1,s2,s3)`, `cur` is `this->state`. -/
def jumpWord (word : BitVec 64) : (count b : Nat) → (acc cur : Xoshiro) → Xoshiro × Xoshiro
  | 0, _, acc, cur => (acc, cur)
  | n + 1, b, acc, cur =>
    let acc := if word &&& (1#64 <<< b) ≠ 0 then acc.xor cur else acc
    jumpWord word n (b + 1) acc cur.step

/-- The outer loop of `jump` over the words, xoshiro_256_star_star.cpp:113-127. -/
def jumpWords : List (BitVec 64) → (acc cur : Xoshiro) → Xoshiro
  | [], acc, _ => acc
  | w :: ws, acc, cur =>
    let (acc, cur) := jumpWord w 64 0 acc cur
    jumpWords ws acc cur

/-- `JUMP[]`, xoshiro_256_star_star.cpp:102-106. -/
def jumpTable : List (BitVec 64) :=
  [0x180ec6d33cfd0aba#64, 0xd5a61266f0c9392c#64, 0xa9582618e03fc9aa#64, 0x39abdc4529b1661c#64]

/-- `LONG_JUMP[]`, xoshiro_256_star_star.cpp:147-151. -/
def longJumpTable : List (BitVec 64) :=
  [0x76e15d3efefdcbbf#64, 0xc5004e441c522fb3#64, 0x77710069854ee241#64, 0x39109bb02acbe635#64]

/-- `jump`, xoshiro_256_star_star.cpp:100-133. -/
def Xoshiro.jump (x : Xoshiro) : Xoshiro := jumpWords jumpTable .zero x

/-- `long_jump`, xoshiro_256_star_star.cpp:145-178. -/
def Xoshiro.longJump (x : Xoshiro) : Xoshiro := jumpWords longJumpTable .zero x

/-! ## random_number_generator.cpp -/

/-- `n` repetitions of `jump` (random_number_generator.cpp:132-135). -/
def jumpTimes : Nat → Xoshiro → Xoshiro
  | 0, x => x
  | n + 1, x => jumpTimes n x.jump

/-- `RandomNumberGenerator::initialize`, random_number_generator.cpp:120-137: the generator of
thread `t` is seeded (each one reads the clock itself when the seed is negative; `clock t` is what
it reads) and jumped `t + 1` times.  An empty thread count trips the `assert`. -/
def initGenerators (numThreads : Nat) (clock : Nat → BitVec 64) (seed : BitVec 64) :
    Except Fault (Array Xoshiro) :=
  if numThreads = 0 then .error .abort
  else .ok (Array.ofFn (fun t : Fin numThreads =>
    jumpTimes (t.1 + 1) (Xoshiro.construct (clock t.1) seed)))

/-- `RandomNumberGenerator::next(thread_id)`, random_number_generator.cpp:150-153. -/
def generatorNext (g : Array Xoshiro) (threadId : Nat) : Except Fault (BitVec 64 × Array Xoshiro) :=
  do
    let x ← rd g threadId
    let (r, x) := x.next
    let g ← wr g threadId x
    .ok (r, g)

/-! ## random_array_generator.cpp -/

/-- One entry: `+1` if bit `j` of `bits` is set, otherwise `-1`
(random_array_generator.cpp:124-134 and 149-160). -/
def signOfBit {K : Type} [OfNat K 1] [Neg K] (bits : BitVec 64) (j : Nat) : K :=
  if bits &&& (1#64 <<< j) ≠ 0 then 1 else -1

/-- `generate_random_array` executed by one thread (the call made inside the parallel loop of the
trace estimator: `num_threads = 0`, or `num_threads = 1`), random_array_generator.cpp:62-165.
`σ`/`next` is the random source of that thread. -/
def generateArray {K σ : Type} [OfNat K 1] [Neg K] (next : σ → Except Fault (BitVec 64 × σ))
    (g : σ) (array : Array K) (arraySize : Nat) : Except Fault (Array K × σ) := do
  let numBits := 64
  let numChunks := arraySize / numBits
  let (array, g) ← forRange 0 numChunks (fun i (s : Array K × σ) => do
    let (bits, g) ← next s.2
    let a ← forRange 0 numBits (fun j a => wr a (i * numBits + j) (signOfBit bits j)) s.1
    .ok (a, g)) (array, g)
  let (bits, g) ← next g
  let (array, _) ← forRange (numChunks * numBits) arraySize (fun i (s : Array K × Nat) => do
    let a ← wr s.1 i (signOfBit bits s.2)
    .ok (a, s.2 + 1)) (array, 0)
  .ok (array, g)

/-! ### `generate_random_array` with `num_threads > 0`

This is the call made by the Hutchinson method (through `py_random_array_generator.pyx:24-51`,
`_linear_algebra/random_vectors.pyx:26-63`).  `thread_id` is declared outside the parallel region
(random_array_generator.cpp:84), so all threads write and read the same variable. -/

/-- Atomic actions of the threads of the parallel region. -/
inductive GenEvent where
  /-- `thread_id = omp_get_thread_num();` executed by thread `t`, random_array_generator.cpp:110-113 -/
  | setTid (t : Nat)
  /-- iteration `i` of the loop over chunks, random_array_generator.cpp:115-137 -/
  | chunk (i : Nat)
  deriving DecidableEq, Repr

/-- Shared state of the region: `thread_id`, the generators, the output. -/
structure GenState (K : Type) where
  tid : Nat
  gens : Array Xoshiro
  array : Array K

/-- One action.  Simplification: an iteration over one chunk is atomic (finer interleavings only
add behaviours). -/
def genEvent {K : Type} [OfNat K 1] [Neg K] (s : GenState K) : GenEvent → Except Fault (GenState K)
  | .setTid t => .ok { s with tid := t }
  | .chunk i => do
    let (bits, gens) ← generatorNext s.gens s.tid
    let a ← forRange 0 64 (fun j a => wr a (i * 64 + j) (signOfBit bits j)) s.array
    .ok { s with gens := gens, array := a }

/-- Execute a sequence of actions. -/
def genEvents {K : Type} [OfNat K 1] [Neg K] :
    List GenEvent → GenState K → Except Fault (GenState K)
  | [], s => .ok s
  | e :: es, s => do
    let s ← genEvent s e
    genEvents es s

/-- The program of thread `t`: it sets the shared `thread_id` and then executes the chunks that the
static schedule gives to it (`owner i = t`), in increasing order. -/
def genProgram (owner : Nat → Nat) (numChunks t : Nat) : List GenEvent :=
  .setTid t :: ((List.range numChunks).filter (fun i => owner i = t)).map .chunk

/-- `generate_random_array` with `num_threads > 0`, random_array_generator.cpp:62-165, for the
interleaving `events` of the programs of the threads; the tail uses the last value of the shared
`thread_id`. -/
def generateArrayPar {K : Type} [OfNat K 1] [Neg K] (events : List GenEvent) (gens : Array Xoshiro)
    (array : Array K) (arraySize : Nat) : Except Fault (Array K × Array Xoshiro) := do
  let s ← genEvents events ⟨0, gens, array⟩
  let (bits, gens) ← generatorNext s.gens s.tid
  let (array, _) ← forRange (arraySize / 64 * 64) arraySize (fun i (s : Array K × Nat) => do
    let a ← wr s.1 i (signOfBit bits s.2)
    .ok (a, s.2 + 1)) (s.array, 0)
  .ok (array, gens)

end Imate.Random
