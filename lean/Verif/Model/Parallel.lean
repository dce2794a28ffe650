import Verif.Model.Kernel
/-
Concurrent execution of generated kernels: `#pragma omp parallel for` and vectorised loops (backend_clang.py:13-22)
and GPU launches (backend.py:44-64, backend_cuda.py:69-81).

Kernels never read `out` (their expressions only read arguments `buf_*`/`fnc_*`), so what concurrent iterations can
observe of each other is nothing, provided they do not assign to variables declared outside; such an assignment, or a
`return` inside a parallel loop, is reported as failure (`none`).  What remains is the order of the stores to `out`,
which is arbitrary.
-/
namespace Whale

/-- `Interleave ls ws`: `ws` is an interleaving of the sequences `ls`, each kept in order. -/
inductive Interleave {α : Type} : List (List α) → List α → Prop
  | nil {ls : List (List α)} : (∀ l ∈ ls, l = []) → Interleave ls []
  | step {pre post : List (List α)} {l : List α} {w : α} {ws : List α} :
      Interleave (pre ++ l :: post) ws → Interleave (pre ++ (w :: l) :: post) (w :: ws)

namespace Kern
variable {V : Type}

/-- Continue after a possible outcome. -/
def andThen (P : Option (St V) → Prop) (k : St V → Option (St V) → Prop) (r : Option (St V)) : Prop :=
  ∃ o, P o ∧ match o with
    | none => r = none
    | some st => k st r

/-- The outcomes of a loop executed in order. -/
def seqLoop (step : KEnv V → Int → Option (St V) → Prop) : List Int → St V → Option (St V) → Prop
  | [], st, r => r = some st
  | i :: is, st, r =>
    if st.ret then r = some st
    else andThen (step st.env i) (fun r1 => seqLoop step is ⟨KEnv.leave st.env r1.env, st.writes ++ r1.writes, r1.ret⟩) r

/-- No iteration failed, returned, or assigned to a variable declared outside of the loop. -/
def goodIter (σ : KEnv V) (o : Option (St V)) : Prop := ∃ st, o = some st ∧ KEnv.leave σ st.env = σ ∧ st.ret = false

/-- The stores of an outcome. -/
def writesOf (o : Option (St V)) : List (Int × V) := match o with
  | some st => st.writes
  | none => []

/-- The outcomes of a loop whose iterations run concurrently. -/
def parLoop (σ : KEnv V) (step : Int → Option (St V) → Prop) (is : List Int) (r : Option (St V)) : Prop :=
  ∃ f : Int → Option (St V), (∀ i ∈ is, step i (f i)) ∧
    ((∀ i ∈ is, goodIter σ (f i)) ∧ (∃ ws, Interleave (is.map fun i => writesOf (f i)) ws ∧ r = some ⟨σ, ws, false⟩) ∨
     (¬ ∀ i ∈ is, goodIter σ (f i)) ∧ r = none)

/-- Loops whose iterations may run concurrently (backend_clang.py:13-22). -/
def isPar : LoopExec → Bool
  | .parallel => true
  | .vectorize => true
  | _ => false

/-- All possible outcomes of a statement when parallel loops run concurrently; `none` is failure. -/
def par (m : Machine V) : Stmt → KEnv V → Option (St V) → Prop
  | .seq s t, σ, r => andThen (par m s σ) (fun r1 r => if r1.ret then r = some r1 else
      andThen (par m t r1.env) (fun r2 r => r = some ⟨r2.env, r1.writes ++ r2.writes, r2.ret⟩) r) r
  | .loop mode x n body, σ, r =>
    if (σ x).isSome then r = none
    else if isPar mode then parLoop σ (fun i => par m body (σ.set x (.I i))) (irange n) r
    else seqLoop (fun σ i => par m body (σ.set x (.I i))) (irange n) ⟨σ, [], false⟩ r
  | .ite c t f, σ, r => match evalKI m.ar σ c with
    | none => r = none
    | some b => andThen (if b ≠ 0 then par m t σ else par m f σ) (fun st r => r = some ⟨KEnv.leave σ st.env, st.writes, st.ret⟩) r
  | s, σ, r => r = exec m s σ

/-- Position of a thread in a launch: block indices and thread indices. -/
structure Thread where
  block : Dim3 → Int
  thread : Dim3 → Int

/-- backend.py:58-62: one iteration of the loop that collects grid (`thread = false`) and block (`thread = true`) sizes. -/
def dimStep (thread : Bool) (d : Dim3) (n : Int) (l : LoopSched) : Int :=
  match l.exec with
  | .gpuBlock d' => if thread = false ∧ d' = d then l.lv.extent else n
  | .gpuThread d' => if thread = true ∧ d' = d then l.lv.extent else n
  | _ => n

/-- backend.py:54-62: grid and block sizes of a schedule; later loops overwrite earlier ones. -/
def launchDim (sch : Schedule) (thread : Bool) (d : Dim3) : Int := sch.loops.foldl (dimStep thread d) 1

/-- Not in the code: launches that `cuLaunchKernel` accepts (backend_cuda.py:75-80; CUDA C++ programming guide, compute capability 3.0 and later): grid at most (2^31 - 1, 65535, 65535), block at most
(1024, 1024, 64) and 1024 threads, no size 0.  For others it returns an error, which `exec` raises (backend_cuda.py:41). -/
def launchOK (sch : Schedule) : Bool :=
  let gx := launchDim sch false .x; let gy := launchDim sch false .y; let gz := launchDim sch false .z
  let bx := launchDim sch true .x; let bY := launchDim sch true .y; let bz := launchDim sch true .z
  decide (1 ≤ gx ∧ gx ≤ 2147483647 ∧ 1 ≤ gy ∧ gy ≤ 65535 ∧ 1 ≤ gz ∧ gz ≤ 65535 ∧ 1 ≤ bx ∧ bx ≤ 1024 ∧ 1 ≤ bY ∧ bY ≤ 1024 ∧ 1 ≤ bz ∧ bz ≤ 64 ∧ bx * bY * bz ≤ 1024)

/-- The threads of a launch. -/
def threads (sch : Schedule) : List Thread :=
  (irange (launchDim sch false .x)).flatMap fun bx => (irange (launchDim sch false .y)).flatMap fun bY =>
  (irange (launchDim sch false .z)).flatMap fun bz => (irange (launchDim sch true .x)).flatMap fun tx =>
  (irange (launchDim sch true .y)).flatMap fun ty => (irange (launchDim sch true .z)).map fun tz =>
    ⟨fun d => match d with | .x => bx | .y => bY | .z => bz, fun d => match d with | .x => tx | .y => ty | .z => tz⟩

/-- The machine as seen by one thread. -/
def onThread (m : Machine V) (t : Thread) : Machine V :=
  { m with gpu := fun thread d => some (if thread then t.thread d else t.block d) }

/-- The possible sequences of stores of a launch (`none`: some thread failed): every thread runs the body, their stores
are interleaved arbitrarily. -/
def launch (m : Machine V) (sch : Schedule) (body : Stmt) (r : Option (List (Int × V))) : Prop :=
  ∃ f : Thread → Option (St V), (∀ t ∈ threads sch, par (onThread m t) body (fun _ => none) (f t)) ∧
    ((∀ t ∈ threads sch, (f t).isSome) ∧ (∃ ws, Interleave ((threads sch).map fun t => writesOf (f t)) ws ∧ r = some ws) ∨
     (¬ ∀ t ∈ threads sch, (f t).isSome) ∧ r = none)

end Kern
end Whale
