import Verif.Model.Algo
import Verif.Spec.Small
import Verif.Proofs.Nested
/-
Meaning of loop expressions, and static well-formedness.  (Proof device: the theorems about kernels do not mention it.)
-/
namespace Whale
open Algo
variable {V : Type}

abbrev LEnv := LoopIndex → Option Int

/-- Loop variables `ls` bound to `vals`, others as in `ρ`. -/
def LEnv.bind (ρ : LEnv) (ls : List LoopIndex) (vals : List Int) : LEnv :=
  fun l => match (ls.zip vals).lookup l with
    | some v => some v
    | none => ρ l

def LEnv.empty : LEnv := fun _ => none

/-- A limit on the results of index operations. Everything in the proofs about index expressions is relative to one; there is none unless one is introduced. -/
class Lim where
  lim : Option Int

instance (priority := low) noLim : Lim := ⟨none⟩

/-- Within the limit. -/
def Fit [Lim] (v : Int) : Prop := ∀ m ∈ Lim.lim, -m ≤ v ∧ v ≤ m

instance [Lim] (v : Int) : Decidable (Fit v) := match h : Lim.lim with
  | none => isTrue (by intro m hm; rw [h] at hm; cases hm)
  | some m => if hv : -m ≤ v ∧ v ≤ m then isTrue (by intro k hk; rw [h] at hk; cases hk; exact hv) else isFalse (fun hf => hv (hf m h))

/-- Everything array `a` is computed from is within the limit, if there is one. -/
def Small [Lim] (g : Graph V) (a : Nat) : Prop := ∀ m ∈ Lim.lim, SmallFrom g m a

theorem SmallFrom.mono {g : Graph V} {m n : Int} {a : Nat} (h : SmallFrom g m a) (hmn : m ≤ n) : SmallFrom g n a := by
  intro i hi
  obtain ⟨h1, h2⟩ := h i hi
  refine ⟨by omega, ?_⟩
  revert h2
  cases g.ctx i <;> intro h2 <;> first | exact trivial | omega | exact fun s hs => Int.le_trans (h2 s hs) hmn

theorem small_none {g : Graph V} {a : Nat} : @Small V noLim g a := fun m hm => by cases hm

theorem fit_none {v : Int} : @Fit noLim v := fun m hm => by cases hm

theorem room_ge_one (s : List Int) : 1 ≤ room s := by
  induction s with
  | nil => decide
  | cons d s ih =>
    unfold room at *
    rw [List.map_cons, prod_cons]
    have h1 : (1 : Int) ≤ max (d.natAbs : Int) 1 := by omega
    calc (1 : Int) = 1 * 1 := by rfl
      _ ≤ _ := Int.mul_le_mul h1 ih (by omega) (by omega)

theorem room_cons (d : Int) (s : List Int) : d ≤ room (d :: s) ∧ -room (d :: s) ≤ d ∧ room s ≤ room (d :: s) := by
  have h := room_ge_one s
  have e : room (d :: s) = max (d.natAbs : Int) 1 * room s := rfl
  have h1 : (1 : Int) ≤ max (d.natAbs : Int) 1 := by omega
  have h2 : max (d.natAbs : Int) 1 * 1 ≤ max (d.natAbs : Int) 1 * room s := Int.mul_le_mul_of_nonneg_left h (by omega)
  have h3 : 1 * room s ≤ max (d.natAbs : Int) 1 * room s := Int.mul_le_mul_of_nonneg_right h1 (by omega)
  rw [e]; omega

theorem room_mem {s : List Int} {d : Int} (h : d ∈ s) : d ≤ room s ∧ -room s ≤ d := by
  induction s with
  | nil => cases h
  | cons x s ih =>
    have := room_cons x s
    rcases List.mem_cons.1 h with rfl | h
    · omega
    · have := ih h; omega

theorem room_valid {s idx : List Int} (h : ValidIdx s idx) : room s = prod s := by
  induction s generalizing idx with
  | nil => rfl
  | cons d s ih => cases idx with
    | nil => simp at h
    | cons i idx =>
      rw [validIdx_cons] at h
      have e : room (d :: s) = max (d.natAbs : Int) 1 * room s := rfl
      rw [e, ih h.2, prod_cons]
      congr 1; omega

theorem Fit.of_le [Lim] {v w : Int} (h : Fit w) (h0 : 0 ≤ v) (h1 : v ≤ w) : Fit v := fun m hm => by have := h m hm; omega

/-- Checked index arithmetic: division only of non-negative by positive numbers, conjunction only of truth values. -/
def iop0 : Ops → Int → Int → Option Int
  | .Add, a, b => some (a + b)
  | .Sub, a, b => some (a - b)
  | .Mul, a, b => some (a * b)
  | .Floordiv, a, b => if 0 ≤ a ∧ 0 < b then some (a / b) else none
  | .Mod, a, b => if 0 ≤ a ∧ 0 < b then some (a % b) else none
  | .And, a, b => if (a = 0 ∨ a = 1) ∧ (b = 0 ∨ b = 1) then some (a * b) else none
  | .Ge, a, b => some (if b ≤ a then 1 else 0)
  | .Lt, a, b => some (if a < b then 1 else 0)
  | .Eq, a, b => some (if a = b then 1 else 0)
  | .Le, a, b => some (if a ≤ b then 1 else 0)
  | _, _, _ => none

/-- Checked index arithmetic with a limit on the result. -/
def iop [Lim] (op : Ops) (a b : Int) : Option Int := (iop0 op a b).filter (fun r => Fit r)

theorem iop_some [Lim] {op : Ops} {a b v : Int} (h : iop0 op a b = some v) (hv : Fit v) : iop op a b = some v := by
  unfold iop; rw [h]; simp [hv]

theorem iop_inv [Lim] {op : Ops} {a b v : Int} (h : iop op a b = some v) : iop0 op a b = some v ∧ Fit v := by
  unfold iop at h
  rw [Option.filter_eq_some_iff] at h
  exact ⟨h.1, by simpa using h.2⟩

theorem Small.room [Lim] {g : Graph V} {a i : Nat} (h : Small g a) (hr : Reach g a i) : Fit (room (g.shape i)) := fun m hm => by
  have := (h m hm i hr).1
  have := room_ge_one (g.shape i)
  omega

/-- Positions in an array within the limit are within the limit. -/
theorem Fit.idx [Lim] {s idx : List Int} (h : Fit (room s)) (hv : ValidIdx s idx) {v : Int} (hm : v ∈ idx) : 0 ≤ v ∧ Fit v := by
  have : 0 ≤ v ∧ v ≤ room s := by
    clear h
    induction s generalizing idx with
    | nil => cases idx <;> simp_all
    | cons d s ih => cases idx with
      | nil => simp at hv
      | cons i idx =>
        rw [validIdx_cons] at hv
        have hr := room_cons d s
        rcases List.mem_cons.1 hm with rfl | hm
        · omega
        · have := ih hv.2 hm; omega
  exact ⟨this.1, h.of_le this.1 this.2⟩

theorem Fit.prod [Lim] {s idx : List Int} (h : Fit (Whale.room s)) (hv : ValidIdx s idx) : Fit (prod s) := by rw [← room_valid hv]; exact h

/-- Weights with non-negative products. -/
def NonNegs (l : List Int) : Prop := ∀ x ∈ l, 0 ≤ x

theorem NonNegs.of_cons {x : Int} {l : List Int} (h : NonNegs (x :: l)) : 0 ≤ x ∧ NonNegs l := ⟨h x (by simp), fun y hy => h y (by simp [hy])⟩

theorem dot_nonneg {a b : List Int} (ha : NonNegs a) (hb : NonNegs b) : 0 ≤ dot a b := by
  induction a generalizing b with
  | nil => simp [dot]
  | cons x a ih => cases b with
    | nil => simp [dot]
    | cons y b =>
      have := Int.mul_nonneg ha.of_cons.1 hb.of_cons.1
      have := ih ha.of_cons.2 hb.of_cons.2
      simp only [dot]; omega

theorem strides_nonneg {s idx : List Int} (h : ValidIdx s idx) : NonNegs (stridesFromShape s) := by
  induction s generalizing idx with
  | nil => intro x hx; simp at hx
  | cons d s ih => cases idx with
    | nil => simp at h
    | cons i idx =>
      rw [validIdx_cons] at h
      rw [stridesFromShape_cons]
      intro x hx
      rcases List.mem_cons.1 hx with rfl | hx
      · exact Int.le_of_lt h.2.prod_pos
      · exact ih h.2 x hx

theorem valid_nonneg {s idx : List Int} (h : ValidIdx s idx) : NonNegs idx := by
  induction s generalizing idx with
  | nil => cases idx <;> simp_all [NonNegs]
  | cons d s ih => cases idx with
    | nil => simp at h
    | cons i idx =>
      rw [validIdx_cons] at h
      intro x hx
      rcases List.mem_cons.1 hx with rfl | hx
      · exact h.1.1
      · exact ih h.2 x hx

theorem Fit.zero [Lim] {v : Int} (h : Fit v) : Fit 0 := fun m hm => by have := h m hm; omega
theorem Fit.bool [Lim] {s : List Int} (h : Fit (Whale.room s)) (p : Prop) [Decidable p] : Fit (if p then 1 else 0) := by
  have := room_ge_one s
  split
  · exact h.of_le (by omega) this
  · exact h.zero

variable [Lim]

def evalI (ρ : LEnv) : IExpr → Option Int
  | .index l => ρ l
  | .const c => some c
  | .bin op l r => do
    let a ← evalI ρ l
    let b ← evalI ρ r
    iop op a b

def evalIs (ρ : LEnv) : List IExpr → Option (List Int)
  | [] => some []
  | e :: es => do
    let v ← evalI ρ e
    let vs ← evalIs ρ es
    pure (v :: vs)

/-- Value expressions without reductions; `rd f idx` is the element of array `f` at `idx`. -/
def evalD (A : Scalar V) (rd : Nat → List Int → Option V) (ρ : LEnv) : DExpr → Option V
  | .const c => some (A.ofInt c)
  | .un op e => do
    let v ← evalD A rd ρ e
    pure (A.un op v)
  | .bin op l r => do
    let a ← evalD A rd ρ l
    let b ← evalD A rd ρ r
    pure (A.bin op a b)
  | .tern _ c t f => do
    let b ← evalI ρ c
    if b ≠ 0 then evalD A rd ρ t else evalD A rd ρ f
  | .red .. => none
  | .func f idx => do
    let is ← evalIs ρ idx
    rd f is
  | .buf n idx => do
    let is ← evalIs ρ idx
    rd n is

/-- Value of a whole function body: a reduction at the root sums over the reduced loops in order. -/
def evalR (A : Scalar V) (rd : Nat → List Int → Option V) (ρ : LEnv) : DExpr → Option V
  | .red _ e reduced =>
    (indices (reduced.map (·.extent))).foldlM (fun acc j => do
      let v ← evalD A rd (ρ.bind reduced j) e
      pure (A.bin .Add acc v)) (A.ofInt 0)
  | e => evalD A rd ρ e

/-- Elements of the arrays of a heap. -/
def denRd (A : Scalar V) (g : Graph V) (f : Nat) (idx : List Int) : Option V :=
  if ValidIdx (g.shape f) idx then some ((den A g f).get idx) else none

/-- Index operations that `convert` generates. -/
def idxOp : Ops → Bool
  | .Add | .Sub | .Mul | .Floordiv | .Mod | .And | .Ge | .Lt | .Eq => true
  | _ => false

/-- Index expressions over the loop variables in `S`. -/
def IWF (S : List LoopIndex) : IExpr → Prop
  | .index l => l ∈ S
  | .const _ => True
  | .bin op l r => idxOp op = true ∧ IWF S l ∧ IWF S r

/-- Reduction-free value expressions over loop variables `S`, reading arrays below `lvl` and constants. -/
def DWF (g : Graph V) (S : List LoopIndex) (lvl : Nat) : DExpr → Prop
  | .const _ => True
  | .un op e => op.isUnary = true ∧ DWF g S lvl e
  | .bin op l r => op.isBinary = true ∧ DWF g S lvl l ∧ DWF g S lvl r
  | .tern op c t f => op = .Where ∧ IWF S c ∧ DWF g S lvl t ∧ DWF g S lvl f
  | .red .. => False
  | .func f idx => f < lvl ∧ idx.length = g.ndim f ∧ ∀ i ∈ idx, IWF S i
  | .buf n idx => n < g.length ∧ n ≤ lvl ∧ g.ctx n = .const ∧ idx.length = g.ndim n ∧ ∀ i ∈ idx, IWF S i

/-- Loop variables introduced by a reduction of array `a`. -/
def RedOK (a : Nat) (rs : List LoopIndex) : Prop := (rs.map (·.pos)).Nodup ∧ ∀ l ∈ rs, l.owner = a ∧ l.red = true

/-- Function bodies of array `a`. -/
def RootWF (g : Graph V) (a : Nat) : DExpr → Prop
  | .red op e rs => op = .Sum ∧ RedOK a rs ∧ DWF g (outLoops g a ++ rs) a e
  | e => DWF g (outLoops g a) a e

/-! ### loop environments -/

theorem lookup_zip_getElem {α β : Type} [BEq α] [LawfulBEq α] {l : List α} {m : List β} (hn : l.Nodup) (hl : l.length = m.length)
    {k : Nat} (hk : k < l.length) : (l.zip m).lookup l[k] = some m[k] := by
  induction l generalizing m k with
  | nil => simp at hk
  | cons a l ih => cases m with
    | nil => simp at hl
    | cons b m =>
      rw [List.nodup_cons] at hn
      cases k with
      | zero => simp [List.lookup]
      | succ k =>
        simp only [List.zip_cons_cons, List.getElem_cons_succ, List.lookup]
        have hk' : k < l.length := by simpa using hk
        have : (l[k] == a) = false := by
          rw [beq_eq_false_iff_ne]; intro e; exact hn.1 (e ▸ List.getElem_mem _)
        rw [this]
        exact ih hn.2 (by simpa using hl) (by simpa using hk)

theorem lookup_zip_none {α β : Type} [BEq α] [LawfulBEq α] {l : List α} {m : List β} {x : α} (h : x ∉ l) : (l.zip m).lookup x = none := by
  induction l generalizing m with
  | nil => simp
  | cons a l ih => cases m with
    | nil => simp
    | cons b m =>
      simp only [List.mem_cons, not_or] at h
      simp only [List.zip_cons_cons, List.lookup]
      have : (x == a) = false := by rw [beq_eq_false_iff_ne]; exact h.1
      rw [this]; exact ih h.2

theorem bind_getElem {ρ : LEnv} {ls : List LoopIndex} {vals : List Int} (hn : ls.Nodup) (hl : ls.length = vals.length)
    {k : Nat} (hk : k < ls.length) : ρ.bind ls vals ls[k] = some (geti vals k) := by
  unfold LEnv.bind
  rw [lookup_zip_getElem hn hl hk, geti_eq_getElem (by omega)]

theorem bind_not_mem {ρ : LEnv} {ls : List LoopIndex} {vals : List Int} {l : LoopIndex} (h : l ∉ ls) : ρ.bind ls vals l = ρ l := by
  unfold LEnv.bind; rw [lookup_zip_none h]

theorem evalIs_length {ρ : LEnv} {es : List IExpr} {vs : List Int} (h : evalIs ρ es = some vs) : vs.length = es.length := by
  induction es generalizing vs with
  | nil => simp [evalIs] at h; subst h; rfl
  | cons e es ih =>
    simp only [evalIs, Option.bind_eq_bind, Option.bind_eq_some_iff, pure, Option.some.injEq] at h
    obtain ⟨v, _, ws, h2, rfl⟩ := h
    simp [ih h2]

/-- Pointwise evaluation of a list of index expressions. -/
theorem evalIs_eq {ρ : LEnv} {es : List IExpr} {vs : List Int} (hl : es.length = vs.length)
    (h : ∀ k (hk : k < es.length), evalI ρ es[k] = some (geti vs k)) : evalIs ρ es = some vs := by
  induction es generalizing vs with
  | nil => have := List.eq_nil_of_length_eq_zero hl.symm; subst this; rfl
  | cons e es ih => cases vs with
    | nil => simp at hl
    | cons v vs =>
      have h0 := h 0 (by simp)
      simp only [List.getElem_cons_zero, geti_cons_zero] at h0
      simp only [evalIs, h0]
      rw [ih (vs := vs) (by simpa using hl) (fun k hk => by
        have := h (k+1) (by simpa using hk)
        simpa only [List.getElem_cons_succ, geti_cons_succ] using this)]
      rfl

theorem evalI_congr {ρ σ : LEnv} {S : List LoopIndex} {e : IExpr} (hw : IWF S e) (h : ∀ l ∈ S, ρ l = σ l) : evalI ρ e = evalI σ e := by
  induction e with
  | index l => exact h l hw
  | const c => rfl
  | bin op l r ihl ihr => simp only [evalI, ihl hw.2.1, ihr hw.2.2]

/-! ### the output loops of an array -/

theorem outLoops_length (g : Graph V) (a : Nat) : (outLoops g a).length = g.ndim a := by simp [outLoops, Graph.ndim]

theorem outLoops_getElem (g : Graph V) (a k : Nat) (hk : k < (outLoops g a).length) :
    (outLoops g a)[k] = { owner := a, red := false, pos := k, extent := geti (g.shape a) k } := by
  have : k < (g.shape a).length := by simpa [outLoops] using hk
  simp [outLoops, geti_eq_getElem this]

theorem outLoops_nodup (g : Graph V) (a : Nat) : (outLoops g a).Nodup := by
  unfold List.Nodup
  rw [List.pairwise_iff_getElem]
  intro i j hi hj hij e
  rw [outLoops_getElem, outLoops_getElem] at e
  have := congrArg LoopIndex.pos e
  simp only at this
  omega

theorem mem_outLoops {g : Graph V} {a : Nat} {l : LoopIndex} (h : l ∈ outLoops g a) : l.owner = a ∧ l.red = false := by
  simp only [outLoops, List.mem_map] at h
  obtain ⟨p, _, rfl⟩ := h
  exact ⟨rfl, rfl⟩

/-- Environment of one output element. -/
def outEnv (g : Graph V) (a : Nat) (idx : List Int) : LEnv := LEnv.empty.bind (outLoops g a) idx

theorem outEnv_getElem {g : Graph V} {a : Nat} {idx : List Int} (h : idx.length = g.ndim a) {k : Nat} (hk : k < (outLoops g a).length) :
    outEnv g a idx (outLoops g a)[k] = some (geti idx k) :=
  bind_getElem (outLoops_nodup g a) (by rw [outLoops_length, h]) hk

theorem evalIs_loopIdx {g : Graph V} {a : Nat} {idx : List Int} (h : idx.length = g.ndim a) :
    evalIs (outEnv g a idx) (loopIdx (outLoops g a)) = some idx := by
  apply evalIs_eq (by simp [loopIdx, outLoops_length, h])
  intro k hk
  simp only [loopIdx, List.getElem_map, evalI]
  exact outEnv_getElem h (by simpa [loopIdx] using hk)

theorem IWF_loopIdx (S : List LoopIndex) : ∀ i ∈ loopIdx S, IWF S i := by
  intro i hi
  simp only [loopIdx, List.mem_map] at hi
  obtain ⟨l, hl, rfl⟩ := hi
  exact hl

end Whale
