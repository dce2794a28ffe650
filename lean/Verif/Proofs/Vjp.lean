import Verif.Proofs.ApiS
import Verif.Proofs.IdxMaps
import Verif.Spec.Gradient
/-
The gradient rules: they succeed, keep the heap well-formed, and return arrays of the inputs' shapes whose meaning is given in
terms of tensor operations.
-/
namespace Whale
open Bwd
variable {V : Type}

/-- The gradient arrays `ys` made for the inputs `xs` have their shapes, and meanings `Ts`. -/
def Grads (A : Scalar V) (g g' : Graph V) : List Nat → List Nat → List (Tensor V) → Prop
  | [], [], [] => True
  | x :: xs, y :: ys, T :: Ts => (y < g'.length ∧ g'.shape y = g.shape x ∧ (den A g' y).Equiv T) ∧ Grads A g g' xs ys Ts
  | _, _, _ => False

structure RuleRes (A : Scalar V) (g g' : Graph V) (xs ys : List Nat) (Ts : List (Tensor V)) : Prop where
  ext : Ext g g'
  wf : WF g'
  nn : NN g'
  grads : Grads A g g' xs ys Ts

theorem Tensor.Equiv.of_eq {t u : Tensor V} (h : t = u) : t.Equiv u := h ▸ .refl t

theorem RuleRes.one {A : Scalar V} {g g' : Graph V} {x y : Nat} {s : List Int} {T : Tensor V} (m : MadeS g g' y s) (hs : s = g.shape x)
    (d : (den A g' y).Equiv T) : RuleRes A g g' [x] [y] [T] :=
  ⟨m.ext, m.wf, m.nn, ⟨m.lt, by rw [m.shape, hs], d⟩, trivial⟩

theorem RuleRes.two {A : Scalar V} {g g1 g' : Graph V} {x x' y y' : Nat} {s s' : List Int} {T T' : Tensor V} (m1 : MadeS g g1 y s) (m : MadeS g1 g' y' s')
    (hs : s = g.shape x) (hs' : s' = g.shape x') (d1 : (den A g1 y).Equiv T) (d : (den A g' y').Equiv T') :
    RuleRes A g g' [x, x'] [y, y'] [T, T'] :=
  have o := m.old m1.lt
  ⟨m1.ext.trans m.ext, m.wf, m.nn, ⟨o.1, by rw [o.2.1, m1.shape, hs], by rw [o.2.2]; exact d1⟩, ⟨m.lt, by rw [m.shape, hs'], d⟩, trivial⟩

theorem unaryRule_ok (A : Scalar V) {g : Graph V} (h : WF g) (hnn : NN g) {op : Ops} {t x gr : Nat} (ho : op.isUnary = true) (ht : t < g.length)
    (hx : x < g.length) (hg : gr < g.length) (hst : g.shape t = g.shape x) (hsg : g.shape gr = g.shape x) :
    ∃ ys g', unaryRule A g op t x gr = .ok (ys, g') ∧ RuleRes A g g' [x] ys [unaryVjp A op (den A g x) (den A g t) (den A g gr)] := by
  cases op <;> first | exact absurd ho (by decide) | skip
  case Neg =>
    obtain ⟨m, d⟩ := unary_s h hnn hg (op := .Neg) (by decide)
    exact ⟨_, _, rfl, .one m hsg (.of_eq (d A))⟩
  case Sin =>
    obtain ⟨m, d⟩ := unary_s h hnn hx (op := .Cos) (by decide)
    have o := m.old hg
    obtain ⟨r, g2, e2, m2, d2⟩ := binary_same m.wf m.nn m.lt o.1 (op := .Mul) (by decide) (by rw [m.shape, o.2.1, hsg])
    refine ⟨[r], g2, ?_, .one (m.trans m2) m.shape (.of_eq ?_)⟩
    · simp only [unaryRule, e2, bind, Except.bind]; rfl
    · rw [d2 A, d A, o.2.2 A]; rfl
  case Cos =>
    obtain ⟨m, d⟩ := unary_s h hnn hx (op := .Sin) (by decide)
    obtain ⟨m1, d1⟩ := unary_s m.wf m.nn m.lt (op := .Neg) (by decide)
    have o := (m.trans m1).old hg
    obtain ⟨r, g2, e2, m2, d2⟩ := binary_same m1.wf m1.nn m1.lt o.1 (op := .Mul) (by decide) (by rw [m1.shape, m.shape, o.2.1, hsg])
    refine ⟨[r], g2, ?_, .one ((m.trans m1).trans m2) (by rw [m1.shape, m.shape]) (.of_eq ?_)⟩
    · simp only [unaryRule, e2, bind, Except.bind]; rfl
    · rw [d2 A, d1 A, d A, o.2.2 A]; rfl
  case Exp =>
    obtain ⟨r, g2, e2, m2, d2⟩ := binary_same h hnn ht hg (op := .Mul) (by decide) (by rw [hst, hsg])
    refine ⟨[r], g2, ?_, .one m2 hst (.of_eq ?_)⟩
    · simp only [unaryRule, e2, bind, Except.bind]; rfl
    · rw [d2 A]; rfl
  case Log =>
    obtain ⟨r, g2, e2, m2, d2⟩ := binary_same h hnn hg hx (op := .Truediv) (by decide) hsg
    refine ⟨[r], g2, ?_, .one m2 hsg (.of_eq ?_)⟩
    · simp only [unaryRule, e2, bind, Except.bind]; rfl
    · rw [d2 A]; rfl
  case Sqrt =>
    obtain ⟨m, g1, e1, m1, d1⟩ := binary_scalar A h hnn ht (op := .Mul) (by decide) (A.host 2)
    have o := m1.old hg
    obtain ⟨r, g2, e2, m2, d2⟩ := binary_same m1.wf m1.nn o.1 m1.lt (op := .Truediv) (by decide) (by rw [m1.shape, o.2.1, hsg, hst])
    refine ⟨[r], g2, ?_, .one (m1.trans m2) (by rw [o.2.1, hsg]) ?_⟩
    · simp only [unaryRule, e1, e2, bind, Except.bind]; rfl
    · rw [d2 A, o.2.2 A]
      exact Tensor.Equiv.zip _ (.refl _) (d1 A) (by rw [den_shape A h hg, den_shape A m1.wf m1.lt, m1.shape, hsg, hst])

theorem binaryRule_ok (A : Scalar V) {g : Graph V} (h : WF g) (hnn : NN g) {op : Ops} {l r gr : Nat} (ho : op ∈ arith)
    (hl : l < g.length) (hr : r < g.length) (hg : gr < g.length) (hlr : g.shape l = g.shape r) (hsg : g.shape gr = g.shape l) :
    ∃ ys g', binaryRule A g op l r gr = .ok (ys, g') ∧ RuleRes A g g' [l, r] ys (binaryVjp A op (den A g l) (den A g r) (den A g gr)) := by
  simp only [arith, List.mem_cons, List.not_mem_nil, or_false] at ho
  rcases ho with rfl | rfl | rfl | rfl | rfl
  · have m := madeS_refl h hg hnn
    exact ⟨_, _, rfl, .two m m hsg (by rw [hsg, hlr]) (.refl _) (.refl _)⟩
  · obtain ⟨m, d⟩ := unary_s h hnn hg (op := .Neg) (by decide)
    exact ⟨_, _, rfl, .two (madeS_refl h hg hnn) m hsg (by rw [hsg, hlr]) (.refl _) (.of_eq (d A))⟩
  · obtain ⟨a, g1, e1, m1, d1⟩ := binary_same h hnn hg hr (op := .Mul) (by decide) (by rw [hsg, hlr])
    have o := m1.old hg
    have ol := m1.old hl
    obtain ⟨b, g2, e2, m2, d2⟩ := binary_same m1.wf m1.nn o.1 ol.1 (op := .Mul) (by decide) (by rw [o.2.1, ol.2.1, hsg])
    refine ⟨[a, b], g2, ?_, .two m1 m2 hsg (by rw [o.2.1, hsg, hlr]) (.of_eq (d1 A)) (.of_eq ?_)⟩
    · simp only [binaryRule, e1, e2, bind, Except.bind]; rfl
    · rw [d2 A, o.2.2 A, ol.2.2 A]
  · obtain ⟨a, g1, e1, m1, d1⟩ := binary_same h hnn hg hr (op := .Truediv) (by decide) (by rw [hsg, hlr])
    have ol1 := m1.old hl
    obtain ⟨m2, d2⟩ := unary_s m1.wf m1.nn ol1.1 (op := .Neg) (by decide)
    have or2 := (m1.trans m2).old hr
    obtain ⟨p, g3, e3, m3, d3⟩ := binary_scalar A m2.wf m2.nn or2.1 (op := .Pow) (by decide) (A.host 2)
    have on3 := m3.old m2.lt
    obtain ⟨q, g4, e4, m4, d4⟩ := binary_same m3.wf m3.nn on3.1 m3.lt (op := .Truediv) (by decide)
      (by rw [on3.2.1, m2.shape, m3.shape, or2.2.1, ol1.2.1, hlr])
    have og4 := (((m1.trans m2).trans m3).trans m4).old hg
    obtain ⟨b, g5, e5, m5, d5⟩ := binary_same m4.wf m4.nn og4.1 m4.lt (op := .Mul) (by decide)
      (by rw [og4.2.1, m4.shape, on3.2.1, m2.shape, ol1.2.1, hsg])
    refine ⟨[a, b], g5, ?_, .two m1 (((m2.trans m3).trans m4).trans m5) hsg (by rw [og4.2.1, hsg, hlr]) (.of_eq (d1 A)) ?_⟩
    · simp only [binaryRule, e1, e3, e4, e5, bind, Except.bind]; rfl
    · rw [d5 A, og4.2.2 A, d4 A, on3.2.2 A, d2 A, ol1.2.2 A]
      have d3' := d3 A
      rw [or2.2.2 A] at d3'
      have sl := den_shape A h hl
      have sr := den_shape A h hr
      refine Tensor.Equiv.zip _ (.refl _) (Tensor.Equiv.zip _ (.refl _) d3' ?_) ?_
      · rw [d3'.1]; simp only [Tensor.map]; rw [sl, sr, hlr]
      · simp only [Tensor.zip, Tensor.map]; rw [den_shape A h hg, sl, hsg]
  · obtain ⟨mm, g1, e1, m1, d1⟩ := binary_scalar A h hnn hr (op := .Sub) (by decide) (A.host 1)
    have ol1 := m1.old hl
    obtain ⟨p, g2, e2, m2, d2⟩ := binary_same m1.wf m1.nn ol1.1 m1.lt (op := .Pow) (by decide) (by rw [ol1.2.1, m1.shape, hlr])
    have or2 := (m1.trans m2).old hr
    obtain ⟨q, g3, e3, m3, d3⟩ := binary_same m2.wf m2.nn or2.1 m2.lt (op := .Mul) (by decide) (by rw [or2.2.1, m2.shape, ol1.2.1, hlr])
    have og3 := ((m1.trans m2).trans m3).old hg
    obtain ⟨a, g4, e4, m4, d4⟩ := binary_same m3.wf m3.nn m3.lt og3.1 (op := .Mul) (by decide) (by rw [og3.2.1, m3.shape, or2.2.1, hsg, hlr])
    have m14 := ((m1.trans m2).trans m3).trans m4
    have ol4 := m14.old hl
    have or4 := m14.old hr
    obtain ⟨p', g5, e5, m5, d5⟩ := binary_same m4.wf m4.nn ol4.1 or4.1 (op := .Pow) (by decide) (by rw [ol4.2.1, or4.2.1, hlr])
    have ol5 := (m14.trans m5).old hl
    obtain ⟨m6, d6⟩ := unary_s m5.wf m5.nn ol5.1 (op := .Log) (by decide)
    have op6 := m6.old m5.lt
    obtain ⟨q', g7, e7, m7, d7⟩ := binary_same m6.wf m6.nn op6.1 m6.lt (op := .Mul) (by decide)
      (by rw [op6.2.1, m5.shape, m6.shape, ol4.2.1, ol5.2.1])
    have og7 := (((m14.trans m5).trans m6).trans m7).old hg
    obtain ⟨b, g8, e8, m8, d8⟩ := binary_same m7.wf m7.nn m7.lt og7.1 (op := .Mul) (by decide)
      (by rw [og7.2.1, m7.shape, op6.2.1, m5.shape, ol4.2.1, hsg])
    have sl := den_shape A h hl
    have sr := den_shape A h hr
    refine ⟨[a, b], g8, ?_, .two m14 (((m5.trans m6).trans m7).trans m8) (by rw [m3.shape, or2.2.1, hlr])
      (by rw [m7.shape, op6.2.1, m5.shape, ol4.2.1, hlr]) ?_ (.of_eq ?_)⟩
    · simp only [binaryRule, e1, e2, e3, e4, e5, e7, e8, bind, Except.bind]; rfl
    · rw [d4 A, og3.2.2 A, d3 A, or2.2.2 A, d2 A, ol1.2.2 A]
      refine Tensor.Equiv.zip _ (Tensor.Equiv.zip _ (.refl _) (Tensor.Equiv.zip _ (.refl _) (d1 A) ?_) ?_) (.refl _) ?_
      · rw [(d1 A).1]; simp only [Tensor.map]; rw [sl, sr, hlr]
      · simp only [Tensor.zip]; rw [sl, sr, hlr]
      · simp only [Tensor.zip]; rw [sr, den_shape A h hg, hsg, hlr]
    · rw [d8 A, og7.2.2 A, d7 A, op6.2.2 A, d6 A, d5 A, ol4.2.2 A, or4.2.2 A, ol5.2.2 A]

end Whale
