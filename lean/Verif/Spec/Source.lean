import Verif.Model.Source
import Verif.Spec.History
import Verif.Spec.Launch
import Verif.Spec.Denote
import Verif.Spec.Reference
import Mathlib.Data.List.Forall2
/-
Vocabulary for C64: sessions at the level of source text.
-/
namespace Whale
open Mat Hist
variable {V : Type}

/-- The run time is one of the three of the library: CUDA exactly on the GPU; digests are hexadecimal; a launch runs each thread once. -/
structure Runtime.OK (R : Runtime V) : Prop where
  lang : R.L = .cuda ↔ R.b.isGpu = true
  hex : ∀ k, ∀ c ∈ R.digest k, c ∈ "0123456789abcdef".toList
  order : ∀ tick sch, (R.order tick sch).Perm (Kern.threads sch)

/-- The numbers of the language suit array `a`: for the element types of the arrays computed on the way, the host's operations are the language's, and the elements of the arrays used are numbers of
that type.  (Python has only one type of variables, so there this always holds; in C and CUDA it holds if all arrays have the same element type.) -/
def Suits (R : Runtime V) (g : Graph V) (a : Nat) : Prop :=
  ∀ f ins sch K, Generates R.b.isGpu g a f ins sch K → Sem.Agrees R.L R.N (g.dtype f) R.b.A ∧ ∀ i ∈ ins, ∀ v ∈ (den R.b.A g i).flatten, Sem.Elem R.L R.N (g.dtype f) v

/-- The calls considered: the domain of the other theorems, and numbers that suit. -/
def Src.ArgsOK (R : Runtime V) (w : World V) (c : Call V) : Prop :=
  Whale.ArgsOK R.b w c ∧ ∀ a, c = .materialize a → Computed w.g (base w.g a) → Suits R w.g (base w.g a)

/-- Programs in which every call returns (and `backward` may be left in the middle).  A call that raises and is caught changes nothing, see `Hist.next`. -/
inductive SRuns (R : Runtime V) (s : SWorld V) : SWorld V → Prop
  | refl : SRuns R s s
  | call {s1 s' : SWorld V} {c : Call V} {o : Out V} : SRuns R s s1 → Src.ArgsOK R s1.w c → Src.step R s1 c = .ok (o, s') → SRuns R s s'
  | stopped {s1 : SWorld V} {w' : World V} {y : Nat} : SRuns R s s1 → y < s1.w.g.length → Whale.ArgsOK R.b s1.w (.backward y) → Bwd.Stopped R.b.A s1.w y w' → SRuns R s ⟨w', s1.texts⟩

/-- The state of a fresh interpreter. -/
def Src.init : SWorld V := ⟨Mat.init, []⟩

/-- The states that programs reach. -/
def SReachable (R : Runtime V) (s : SWorld V) : Prop := SRuns R Src.init s

/-- A program run together with its reference meaning, as `Tracks`: `H` lists the arrays returned so far, each with the tensor it is supposed to be. -/
inductive STracks (R : Runtime V) : SWorld V → List (Nat × Tensor V) → Prop
  | init : STracks R Src.init []
  | returns {s s' H c r T} (ρ : Nat → Tensor V) : STracks R s H → Src.ArgsOK R s.w c → (∀ a ∈ c.arrays, (a, ρ a) ∈ H) → Src.step R s c = .ok (.arr r, s') →
      meaning R.b.A s.w.g.dtype ρ c = some T → STracks R s' ((r, T) :: H)
  | other {s s' H c o} : STracks R s H → Src.ArgsOK R s.w c → Src.step R s c = .ok (o, s') → STracks R s' H
  | stopped {s : SWorld V} {w' H y} : STracks R s H → y < s.w.g.length → Whale.ArgsOK R.b s.w (.backward y) → Bwd.Stopped R.b.A s.w y w' → STracks R ⟨w', s.texts⟩ H

/-- No number operation used in computing `a` lacks a result. -/
def AllTotal (R : Runtime V) (g : Graph V) (a : Nat) : Prop := ∀ f, Reach g a f → Sem.Total R.L R.N (g.dtype f) (fun _ => True) (Sem.Uses g a)

/-- Everything `a` is built from has element type `dt`, and the numbers in constant arrays are of that type. -/
def OneType (L : Lang) (N : Sem.Num V) (dt : DType) (g : Graph V) (a : Nat) : Prop :=
  ∀ i, Reach g a i → g.dtype i = dt ∧ ∀ l, (g.nd i).val = some l → ∀ v ∈ l, Sem.Elem L N dt v

/-- The same memory, and for every compiled source in the cache the statement tree in the other cache that it is the source of. -/
structure Matches (R : Runtime V) (s : SWorld V) (w : World V) : Prop where
  same : s.w = { w with cache := [], hits := fun _ => 0, hist := [] }
  texts : List.Forall₂ (fun x y => x.1 = y.1 ∧ Syntax.parse R.L x.2 = some (y.2.program R.L (Text.kernName (R.digest y.1)))) s.texts w.cache

end Whale
