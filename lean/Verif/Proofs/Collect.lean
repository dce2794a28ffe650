import Verif.Spec.Collect
import Verif.Proofs.Strided
/-
Garbage collection never touches what a program can still reach.
-/
namespace Whale
open Mat Hist Algo
variable {V : Type}

theorem materialize_step {b : Backend V} (hb : Faithful b) {w : World V} (h : Inv b w) {a : Nat} (ha : a < w.g.length) (hargs : ArgsOK b w (.materialize a)) :
    ∃ w', materialize b w a = .ok w' ∧ MatRes b w w' a := by
  have hbl := Nat.lt_of_le_of_lt (base_le h.winv.wf ha) ha
  obtain ⟨hns, hnc, hne⟩ := hargs
  exact materialize_ok hb h.winv ha hns hnc (fun hg => kernelSizes_of h.winv.wf ha hns (hne hg))

/-! ### Calls only create references to arrays they can reach -/

/-- A postcondition of a computation that may raise. -/
def Post {α : Type} (Q : α → Prop) (e : Except Err α) : Prop := ∀ a, e = .ok a → Q a

theorem Post.pure {α : Type} {Q : α → Prop} {a : α} (h : Q a) : Post Q (Except.ok a) := fun _ e => by cases e; exact h
theorem Post.error {α : Type} {Q : α → Prop} {x : Err} : Post Q (Except.error x : Except Err α) := fun _ e => by cases e
theorem Post.bind {α β : Type} {Q : α → Prop} {S : β → Prop} {e : Except Err α} {f : α → Except Err β} (h : Post Q e) (k : ∀ a, Q a → Post S (f a)) : Post S (e >>= f) := by
  intro b hb
  obtain ⟨a, ha, hf⟩ := except_bind_ok hb
  exact k a (h a ha) b hf
theorem Post.mono {α : Type} {Q S : α → Prop} {e : Except Err α} (h : Post Q e) (k : ∀ a, Q a → S a) : Post S e := fun a ha => k a (h a ha)

/-- `P` is closed under references from the arrays in `P` to their inputs; all arrays from `N` on are in `P`. -/
structure Cl (P : Nat → Prop) (N : Nat) (g : Graph V) : Prop where
  new : ∀ i, N ≤ i → P i
  le : N ≤ g.length
  inp : ∀ i < g.length, P i → ∀ x ∈ (g.ctx i).inputs, P x

variable {P : Nat → Prop} {N : Nat} {g : Graph V}

theorem Cl.push (h : Cl P N g) {n : Node V} (hn : ∀ x ∈ n.ctx.inputs, P x) : P (g.push n).1 ∧ Cl P N (g.push n).2 := by
  refine ⟨h.new _ h.le, h.new, by have := h.le; simp [Graph.push]; omega, fun i hi hp x hx => ?_⟩
  simp only [Graph.push, List.length_append, List.length_singleton] at hi
  by_cases e : i = g.length
  · subst e
    simp only [Graph.push, Graph.ctx, nd_push] at hx
    exact hn x hx
  · have hl : i < g.length := by omega
    rw [show (g.push n).2 = g ++ [n] from rfl, (Ext.push g n).ctx hl] at hx
    exact h.inp i hl hp x hx

/-- The postcondition of operations that return an array. -/
abbrev PA (P : Nat → Prop) (N : Nat) : Nat × Graph V → Prop := fun q => P q.1 ∧ Cl P N q.2
/-- The postcondition of gradient rules. -/
abbrev PL (P : Nat → Prop) (N : Nat) : List Nat × Graph V → Prop := fun q => (∀ r ∈ q.1, P r) ∧ Cl P N q.2

theorem cl_unary (h : Cl P N g) {op : Ops} {a : Nat} (ha : P a) : PA P N (ND.unary g op a) := h.push (by simpa [ND.elemwiseNode, Ctx.inputs] using ha)

theorem cl_broadcastTo (h : Cl P N g) {s : List Int} {a : Nat} (ha : P a) : PA P N (ND.broadcastTo g a s) := h.push (by simpa [ND.broadcastNode, Ctx.inputs] using ha)

theorem cl_const (h : Cl P N g) {A : Scalar V} {s : List Int} {l : List V} : PA P N (ND.const A g s l) := h.push (by simp [ND.constNode, Ctx.inputs])

theorem cl_broadcasted (h : Cl P N g) {a b : Nat} (ha : P a) (hb : P b) : Post (fun q => P q.1.1 ∧ P q.1.2 ∧ Cl P N q.2) (ND.broadcasted g a b) := by
  unfold ND.broadcasted
  refine Post.bind (Q := fun _ => True) (fun _ _ => trivial) fun s _ => ?_
  have h1 : PA P N (if g.shape a ≠ s then ND.broadcastTo g a s else (a, g)) := by
    split
    · exact cl_broadcastTo h ha
    · exact ⟨ha, h⟩
  generalize (if g.shape a ≠ s then ND.broadcastTo g a s else (a, g)) = q1 at h1
  obtain ⟨l, g1⟩ := q1
  have h2 : PA P N (if g1.shape b ≠ s then ND.broadcastTo g1 b s else (b, g1)) := by
    split
    · exact cl_broadcastTo h1.2 hb
    · exact ⟨hb, h1.2⟩
  simp only
  generalize (if g1.shape b ≠ s then ND.broadcastTo g1 b s else (b, g1)) = q2 at h2
  obtain ⟨r, g2⟩ := q2
  exact Post.pure ⟨h1.1, h2.1, h2.2⟩

theorem cl_binary (h : Cl P N g) {op : Ops} {a b : Nat} (ha : P a) (hb : P b) : Post (PA P N) (ND.binary g op a b) := by
  unfold ND.binary
  refine (cl_broadcasted h ha hb).bind fun q hq => ?_
  obtain ⟨⟨l, r⟩, g'⟩ := q
  exact Post.pure (hq.2.2.push (by simpa [ND.elemwiseNode, Ctx.inputs] using ⟨hq.1, hq.2.1⟩))

theorem cl_sum (h : Cl P N g) {ax : AxisArg} {kd : Bool} {a : Nat} (ha : P a) : Post (PA P N) (ND.sum g a ax kd) := by
  unfold ND.sum
  refine Post.bind (Q := fun _ => True) (fun _ _ => trivial) fun s _ => Post.pure (h.push (by simpa [ND.reduceNode, Ctx.inputs] using ha))

theorem cl_getitem (h : Cl P N g) {s : List RawSub} {a : Nat} (ha : P a) : Post (PA P N) (ND.getitem g a s) := by
  unfold ND.getitem
  split
  · exact Post.error
  · refine Post.bind (Q := fun _ => True) (fun _ _ => trivial) fun s _ => Post.pure (h.push (by simpa [ND.sliceNode, Ctx.inputs] using ha))

theorem cl_contiguous (h : Cl P N g) {a : Nat} (ha : P a) : PA P N (ND.contiguous g a) := by
  unfold ND.contiguous
  split
  · exact ⟨ha, h⟩
  · exact h.push (by simpa [ND.elemwiseNode, Ctx.inputs] using ha)

theorem cl_reshape (h : Cl P N g) {s : List Int} {a : Nat} (ha : P a) : Post (PA P N) (ND.reshape g a s) := by
  unfold ND.reshape
  by_cases hp : prod s ≠ prod (g.shape a)
  · rw [if_pos hp]; exact Post.error
  · rw [if_neg hp]
    have hc := cl_contiguous h ha
    generalize ND.contiguous g a = q at hc
    exact Post.pure (hc.2.push (by simpa [ND.reshapeNode, Ctx.inputs] using hc.1))

theorem cl_transpose (h : Cl P N g) {s : List Int} {a : Nat} (ha : P a) : Post (PA P N) (ND.transpose g a s) := by
  unfold ND.transpose
  by_cases hp : s.pySort ≠ (List.range (g.ndim a)).map Int.ofNat
  · rw [if_pos hp]; exact Post.error
  · rw [if_neg hp]; exact Post.pure (h.push (by simpa [ND.transposeNode, Ctx.inputs] using ha))

theorem cl_T (h : Cl P N g) {a : Nat} (ha : P a) : Post (PA P N) (ND.T g a) := by
  unfold ND.T
  split
  · exact Post.pure ⟨ha, h⟩
  · exact cl_transpose h ha

theorem cl_pad (h : Cl P N g) {d x y : Int} {a : Nat} (ha : P a) : Post (PA P N) (ND.pad g a d x y) := by
  unfold ND.pad
  split
  · exact Post.error
  split
  · exact Post.pure ⟨ha, h⟩
  split
  · exact Post.error
  · exact Post.pure (h.push (by simpa [ND.padNode, Ctx.inputs] using ha))

theorem cl_dilate (h : Cl P N g) {d s : Int} {a : Nat} (ha : P a) : Post (PA P N) (ND.dilate g a d s) := by
  unfold ND.dilate
  split
  · exact Post.error
  split
  · exact Post.pure ⟨ha, h⟩
  split
  · exact Post.error
  · exact Post.pure (h.push (by simpa [ND.dilateNode, Ctx.inputs] using ha))

theorem cl_array (h : Cl P N g) {A : Scalar V} {v : Nested V} : Post (PA P N) (ND.array A g v) := by
  unfold ND.array
  exact Post.bind (Q := fun _ => True) (fun _ _ => trivial) fun s _ => Post.pure (cl_const h)

/-! #### gradient rules -/

theorem PL.one {q : Nat × Graph V} (h : PA P N q) : PL P N ([q.1], q.2) := ⟨by simpa using h.1, h.2⟩

theorem cl_sumRule (h : Cl P N g) {x gr : Nat} {ax : List Nat} {kd : Bool} (hg : P gr) : Post (PL P N) (Bwd.sumRule g x ax kd gr) := by
  unfold Bwd.sumRule
  simp only
  split
  · exact Post.bind (Q := PA P N) (Post.pure ⟨hg, h⟩) fun q hq => Post.pure (PL.one (cl_broadcastTo hq.2 hq.1))
  · exact (cl_reshape h hg).bind fun q hq => Post.pure (PL.one (cl_broadcastTo hq.2 hq.1))

theorem cl_broadcastRule (h : Cl P N g) {x gr : Nat} (hg : P gr) : Post (PL P N) (Bwd.broadcastRule g x gr) := by
  unfold Bwd.broadcastRule
  refine (cl_sum h hg).bind fun q hq => ?_
  simp only
  split
  · exact Post.pure (PL.one hq)
  · exact (cl_reshape hq.2 hq.1).bind fun r hr => Post.pure (PL.one hr)

theorem cl_sliceLoop {shape : List Int} (subs : List Sub) : ∀ {d : Nat} {g : Graph V} {gr : Nat}, Cl P N g → P gr → Post (PA P N) (Bwd.sliceLoop shape subs d g gr) := by
  induction subs with
  | nil => intro d g gr h hg; exact Post.pure ⟨hg, h⟩
  | cons s subs ih =>
    intro d g gr h hg
    cases s with
    | int i =>
      unfold Bwd.sliceLoop
      exact (cl_reshape h hg).bind fun q hq => (cl_pad hq.2 hq.1).bind fun r hr => ih hr.2 hr.1
    | slice a b c =>
      unfold Bwd.sliceLoop
      have key : ∀ q : Nat × Graph V, PA P N q → Post (PA P N) (if a > 0 ∨ geti shape d - a - geti (q.2.shape q.1) d > 0
          then ND.pad q.2 q.1 d a (geti shape d - a - geti (q.2.shape q.1) d) >>= fun r => Bwd.sliceLoop shape subs (d + 1) r.2 r.1
          else (Pure.pure (q.1, q.2) : Except Err (Nat × Graph V)) >>= fun r => Bwd.sliceLoop shape subs (d + 1) r.2 r.1) := by
        intro q hq
        split
        · exact (cl_pad hq.2 hq.1).bind fun r hr => ih hr.2 hr.1
        · exact ih hq.2 hq.1
      simp only
      split
      · exact (cl_dilate h hg).bind key
      · exact Post.bind (Q := PA P N) (Post.pure ⟨hg, h⟩) key

theorem cl_unaryRule (h : Cl P N g) {A : Scalar V} {op : Ops} {t x gr : Nat} (ht : P t) (hx : P x) (hg : P gr) : Post (PL P N) (Bwd.unaryRule A g op t x gr) := by
  unfold Bwd.unaryRule
  cases op <;> try exact Post.error
  case Neg => exact Post.pure (PL.one (cl_unary h hg))
  case Sin =>
    have h1 := cl_unary (op := .Cos) h hx
    exact (cl_binary h1.2 h1.1 hg).bind fun q hq => Post.pure (PL.one hq)
  case Cos =>
    have h1 := cl_unary (op := .Sin) h hx
    have h2 := cl_unary (op := .Neg) h1.2 h1.1
    exact (cl_binary h2.2 h2.1 hg).bind fun q hq => Post.pure (PL.one hq)
  case Exp => exact (cl_binary h ht hg).bind fun q hq => Post.pure (PL.one hq)
  case Log => exact (cl_binary h hg hx).bind fun q hq => Post.pure (PL.one hq)
  case Sqrt =>
    have h1 : PA P N (ND.constScalar A g (A.host 2)) := cl_const h
    exact (cl_binary h1.2 ht h1.1).bind fun m hm => (cl_binary hm.2 hg hm.1).bind fun q hq => Post.pure (PL.one hq)

theorem PL.two {a b : Nat} {g : Graph V} (ha : P a) (hb : P b) (h : Cl P N g) : PL P N ([a, b], g) := ⟨by
  intro r hr
  rcases List.mem_cons.1 hr with rfl | hr
  · exact ha
  · rw [List.mem_singleton.1 hr]; exact hb, h⟩

theorem cl_binaryRule (h : Cl P N g) {A : Scalar V} {op : Ops} {l r gr : Nat} (hl : P l) (hr : P r) (hg : P gr) : Post (PL P N) (Bwd.binaryRule A g op l r gr) := by
  unfold Bwd.binaryRule
  cases op <;> try exact Post.error
  case Add => exact Post.pure (PL.two hg hg h)
  case Sub =>
    have h1 := cl_unary (op := .Neg) h hg
    exact Post.pure (PL.two hg h1.1 h1.2)
  case Mul => exact (cl_binary h hg hr).bind fun a ha => (cl_binary ha.2 hg hl).bind fun b hb => Post.pure (PL.two ha.1 hb.1 hb.2)
  case Truediv =>
    refine (cl_binary h hg hr).bind fun a ha => ?_
    have h1 := cl_unary (op := .Neg) ha.2 hl
    have h2 : PA P N (ND.constScalar A (ND.unary a.2 .Neg l).2 (A.host 2)) := cl_const h1.2
    exact (cl_binary h2.2 hr h2.1).bind fun p hp => (cl_binary hp.2 h1.1 hp.1).bind fun q hq => (cl_binary hq.2 hg hq.1).bind fun b hb => Post.pure (PL.two ha.1 hb.1 hb.2)
  case Pow =>
    have h1 : PA P N (ND.constScalar A g (A.host 1)) := cl_const h
    refine (cl_binary h1.2 hr h1.1).bind fun m hm => (cl_binary hm.2 hl hm.1).bind fun p hp => (cl_binary hp.2 hr hp.1).bind fun q hq => (cl_binary hq.2 hq.1 hg).bind fun a ha =>
      (cl_binary ha.2 hl hr).bind fun p2 hp2 => ?_
    have h2 := cl_unary (op := .Log) hp2.2 hl
    exact (cl_binary h2.2 hp2.1 h2.1).bind fun q2 hq2 => (cl_binary hq2.2 hq2.1 hg).bind fun b hb => Post.pure (PL.two ha.1 hb.1 hb.2)

theorem cl_rule (h : Cl P N g) {A : Scalar V} {t gr : Nat} (htl : t < g.length) (ht : P t) (hg : P gr) : Post (PL P N) (Bwd.rule A g t gr) := by
  have hin := h.inp t htl ht
  unfold Bwd.rule
  cases hc : g.ctx t <;> rw [hc] at hin <;> simp only
  case const => exact Post.error
  case unary op x => exact cl_unaryRule h ht (hin x (by simp [Ctx.inputs])) hg
  case binary op l r => exact cl_binaryRule h (hin l (by simp [Ctx.inputs])) (hin r (by simp [Ctx.inputs])) hg
  case sum => exact cl_sumRule h hg
  case reshape => exact (cl_reshape h hg).bind fun q hq => Post.pure (PL.one hq)
  case broadcast => exact cl_broadcastRule h hg
  case slice => exact (cl_sliceLoop _ h hg).bind fun q hq => Post.pure (PL.one hq)
  case transpose => exact (cl_transpose h hg).bind fun q hq => Post.pure (PL.one hq)
  case contiguous => exact Post.pure ⟨by simpa using hg, h⟩
  case pad => exact (cl_getitem h hg).bind fun q hq => Post.pure (PL.one hq)
  case dilate => exact (cl_getitem h hg).bind fun q hq => Post.pure (PL.one hq)

/-! #### what a `materialize` call touches -/

/-- Worlds `w` and `w'` have the same data at array `i`. -/
def SameAt (w w' : World V) (i : Nat) : Prop := w'.cpu i = w.cpu i ∧ w'.dev i = w.dev i

theorem SameAt.refl (w : World V) (i : Nat) : SameAt w w i := ⟨rfl, rfl⟩
theorem SameAt.trans {w w' w'' : World V} {i : Nat} (h : SameAt w w' i) (k : SameAt w' w'' i) : SameAt w w'' i := ⟨k.1.trans h.1, k.2.trans h.2⟩

theorem fillCpu_foot {A : Scalar V} {w : World V} {x i : Nat} (hi : i ≠ x) : SameAt w (fillCpu A w x) i := by
  unfold fillCpu
  split
  · exact .refl ..
  · exact ⟨by simp [upd, hi], rfl⟩

theorem toDev_foot {b : Backend V} {w w' : World V} {p : Nat × Nat} {i : Nat} (hi : i ≠ p.1) (h : toDev b w p = .ok w') : SameAt w w' i := by
  unfold toDev at h
  obtain ⟨w1, h1, h2⟩ := except_bind_ok h
  cases h2
  have : SameAt w w1 i := by
    unfold alloc at h1
    split at h1
    · cases h1; exact .refl ..
    · split at h1
      · cases h1
      · cases h1; exact ⟨rfl, by simp [upd, hi]⟩
  refine this.trans ?_
  unfold htod
  split
  · split
    · exact ⟨rfl, by simp [upd, hi]⟩
    · exact .refl ..
  · exact .refl ..

theorem invoke_foot {b : Backend V} {w w' : World V} {sch : Schedule} {K : Kernel} {out : Nat} {ins : List Nat} {i : Nat} (hi : i ∉ out :: ins)
    (h : invoke b w sch K out ins = .ok w') : SameAt w w' i := by
  have hio : i ≠ out := fun e => hi (by simp [e])
  unfold invoke at h
  simp only [bind, Except.bind] at h
  split at h
  · cases h
  split at h
  · cases h
  split at h
  · split at h
    · cases h
    · rename_i w1 h1
      have hf : SameAt w w1 i := by
        have key : ∀ (l : List (Nat × Nat)) (w : World V), (∀ p ∈ l, i ≠ p.1) → l.foldlM (toDev b) w = .ok w1 → SameAt w w1 i := by
          intro l
          induction l with
          | nil => intro w _ h; cases h; exact .refl ..
          | cons p l ih =>
            intro w hl h
            rw [List.foldlM_cons] at h
            obtain ⟨w2, h2, h3⟩ := except_bind_ok h
            exact (toDev_foot (hl p (by simp)) h2).trans (ih w2 (fun q hq => hl q (by simp [hq])) h3)
        refine key _ w (fun p hp e => hi ?_) h1
        rw [e]; exact (List.mem_zipIdx' hp).2 ▸ List.getElem_mem _
      split at h
      · split at h
        · cases h; exact hf.trans ⟨rfl, by simp [upd, hio]⟩
        · cases h
      · cases h
  · have hf : ∀ (l : List Nat) (w : World V), i ∉ l → SameAt w (l.foldl (fillCpu b.A) w) i := by
      intro l
      induction l with
      | nil => intro w _; exact .refl ..
      | cons x l ih =>
        intro w hl
        exact (fillCpu_foot (fun e => hl (by simp [e]))).trans (ih _ (fun e => hl (by simp [e])))
    have hf := hf _ w hi
    split at h
    · split at h
      · cases h; exact hf.trans ⟨by simp [upd, hio], rfl⟩
      · cases h
    · cases h

theorem runFuncs_foot {b : Backend V} {t : Tbl} {fuel i : Nat} {ps : List (Nat × Schedule)} {w w' : World V}
    (h : ps.foldlM (runFunc b t fuel) w = .ok w')
    (ht : ∀ p ∈ ps, ∃ F, t p.1 = some F ∧ F.outBuffer = p.1 ∧ i ∉ p.1 :: ((args F.expr).1 ++ (args F.expr).2) ∧ ∀ d ∈ (args F.expr).2, ∃ D, t d = some D ∧ D.outBuffer = d) :
    SameAt w w' i := by
  induction ps generalizing w with
  | nil => cases h; exact .refl ..
  | cons p ps ih =>
    rw [List.foldlM_cons] at h
    obtain ⟨w1, h1, h2⟩ := except_bind_ok h
    refine SameAt.trans ?_ (ih h2 (fun q hq => ht q (by simp [hq])))
    obtain ⟨F, hF, hob, hni, hds⟩ := ht p (by simp)
    have houts : outBufs t (args F.expr).2 = .ok ((args F.expr).2.map id) := by
      apply mapM_ok
      intro d hd
      obtain ⟨D, hD, hDb⟩ := hds d hd
      simp only [hD, pure, Except.pure, hDb, id]
    rw [List.map_id] at houts
    rw [← hob] at hni
    unfold runFunc at h1
    simp only [hF, houts, bind, Except.bind] at h1
    split at h1
    · cases h1
    · split at h1
      · have hs := invoke_foot hni h1
        exact ⟨hs.1, hs.2⟩
      · split at h1
        · cases h1
        · split at h1
          · cases h1
          · rename_i hq
            cases h1
            have hs := invoke_foot hni hq
            exact ⟨hs.1, hs.2⟩

theorem base_reach {g : Graph V} (h : WF g) {a : Nat} (ha : a < g.length) : Reach g a (base g a) := by
  induction a using Nat.strongRecOn with
  | ind a ih =>
    cases hv : (g.ctx a).op.isView with
    | false => rw [base_nonview hv]; exact .refl
    | true =>
      obtain ⟨x, hx⟩ := view_input hv h ha
      have hlt := h.inputs_lt ha x (by rw [hx]; simp)
      rw [base_view h ha hv hx]
      exact (Reach.step .refl (by rw [hx]; simp)).trans (ih x hlt (by omega))

/-- `materialize` touches only arrays that the requested array was computed from. -/
theorem materialize_foot {b : Backend V} {w w' : World V} (h : Inv b w) {a : Nat} (ha : a < w.g.length) (hok : ArgsOK b w (.materialize a)) (hm : materialize b w a = .ok w') {i : Nat}
    (hi : ¬ Reach w.g a i) : SameAt w w' i := by
  have hw := h.winv.wf
  obtain ⟨hns, _, _⟩ := hok
  obtain ⟨fuel', e⟩ := materializeF_base (b := b) hw ha (a + 1) (by omega)
  unfold materialize at hm
  rw [e] at hm
  have hbl := Nat.lt_of_le_of_lt (base_le hw ha) ha
  have hbb := base_base hw ha
  have hrb := base_reach hw ha
  unfold materializeF at hm
  split at hm
  · cases hm; exact .refl ..
  rename_i hnc
  simp only [hbb, Bool.false_eq_true, if_false] at hm
  have hc : w.g.ctx (base w.g a) ≠ .const := fun e => hnc (by rw [e]; rfl)
  obtain ⟨funcs, t, e, hnd, ⟨p, hp⟩, hord, htg, hreach⟩ := convert_good hw hbl hns hbb hc
  obtain ⟨scheds, es, hl, hps⟩ := schedAll_ok (isGpu := b.isGpu) htg funcs (fun _ h => h)
  have hr := convert_refs hw hbl hns e
  have hfr : ∀ f ∈ funcs, Reach w.g (base w.g a) f := by
    obtain ⟨funcs', t', e', _, _, _, hent⟩ := convert_ok hw hbl hns hbb
    rw [e] at e'; cases e'; exact fun f hf => (hent f hf).1
  simp only [e, es, bind, Except.bind] at hm
  have hmap : (funcs.zip scheds).map (·.1) = funcs := by apply List.map_fst_zip; omega
  suffices hs : _ by
    have hs' := runFuncs_foot (i := i) hm hs
    exact ⟨hs'.1, hs'.2⟩
  intro q hq
  have hqf : q.1 ∈ funcs := by rw [← hmap]; exact List.mem_map_of_mem hq
  obtain ⟨_, _, F, hF, hE, hrefs⟩ := htg.entry q.1 hqf
  refine ⟨F, hF, hE.buffer, fun hm => hi ?_, fun d hd => ?_⟩
  · have h1 := hrb.trans (hfr q.1 hqf)
    rcases List.mem_cons.1 hm with rfl | hm
    · exact h1
    · rcases List.mem_append.1 hm with hm | hm
      · exact h1.trans (hr _ F hF i (mem_refs.2 (.inr (mem_dedup.1 hm))))
      · exact h1.trans (hr _ F hF i (mem_refs.2 (.inl (mem_dedup.1 hm))))
  · obtain ⟨_, _, D, hD, hED, _⟩ := htg.entry d (hrefs d (mem_dedup.1 hd)).1
    exact ⟨D, hD, hED.buffer⟩

/-- `tolist` touches only the array whose data it reads. -/
theorem tolist_foot {b : Backend V} {w w' : World V} {a i : Nat} {l : Nested V} (h : tolist b w a = .ok (l, w')) (hi : i ≠ base w.g a) : SameAt w w' i := by
  unfold tolist at h
  obtain ⟨w1, h1, h2⟩ := except_bind_ok h
  have : SameAt w w1 i := by
    unfold ensureCpu at h1
    split at h1
    · cases h1; exact .refl ..
    · split at h1
      · split at h1
        · cases h1; exact ⟨by simp [upd, hi], rfl⟩
        · cases h1
      · cases h1
  refine this.trans ?_
  split at h2
  · obtain ⟨q, h3, h4⟩ := except_bind_ok h2
    cases h4; exact .refl ..
  · cases h2

/-! #### worlds -/

/-- `P` is closed under all references between arrays of world `w`; outside `P`, nothing has changed since world `w0`. -/
structure WCl (P : Nat → Prop) (N : Nat) (w0 w : World V) : Prop extends Cl P N w.g where
  grd : ∀ i k, P i → w.grad i = some k → P k
  out : ∀ i, ¬ P i → w.cpu i = w0.cpu i ∧ w.dev i = w0.dev i ∧ w.grad i = w0.grad i

variable {w0 : World V}

theorem WCl.live {w : World V} (h : WCl P N w0 w) (hl : ∀ i, (w.g.ctx i).inputs ≠ [] → i < w.g.length) {R : List Nat} (hR : ∀ i ∈ R, P i) {i : Nat} (hi : Live w R i) : P i := by
  induction hi with
  | root hm => exact hR _ hm
  | @input i x _ hx ih => exact h.inp i (hl i (List.ne_nil_of_mem hx)) ih x hx
  | grad _ hk ih => exact h.grd _ _ ih hk

theorem WCl.setGrad {w : World V} (h : WCl P N w0 w) {x k : Nat} (hx : P x) (hk : P k) {g : Graph V} (hg : Cl P N g) : WCl P N w0 { w with g := g, grad := upd w.grad x k } :=
  ⟨hg, fun i j hi hj => by
    simp only [upd] at hj
    split at hj
    · cases hj; exact hk
    · exact h.grd i j hi hj, fun i hi => by
    have := h.out i hi
    have hne : i ≠ x := fun e => hi (e ▸ hx)
    simpa [upd, hne] using this⟩

theorem cl_accum {w : World V} (h : WCl P N w0 w) {p : Nat × Nat} (h1 : P p.1) (h2 : P p.2) : Post (WCl P N w0) (Bwd.accum w p) := by
  unfold Bwd.accum
  cases hg : w.grad p.1 with
  | none => exact Post.pure (h.setGrad h1 h2 h.toCl)
  | some o => exact (cl_binary h.toCl (h.grd _ _ h1 hg) h2).bind fun q hq => Post.pure (h.setGrad h1 hq.1 hq.2)

theorem Post.foldlM {α β : Type} {Q : β → Prop} {f : β → α → Except Err β} {l : List α} (hf : ∀ b, Q b → ∀ a ∈ l, Post Q (f b a)) {b : β} (hb : Q b) : Post Q (l.foldlM f b) := by
  induction l generalizing b with
  | nil => exact Post.pure hb
  | cons a l ih =>
    rw [List.foldlM_cons]
    exact (hf b hb a List.mem_cons_self).bind fun c hc => ih (fun b hb x hx => hf b hb x (List.mem_cons_of_mem _ hx)) hc

theorem accum_length {w w' : World V} {p : Nat × Nat} (h : Bwd.accum w p = .ok w') : w.g.length ≤ w'.g.length := by
  have : Post (fun w' : World V => w.g.length ≤ w'.g.length) (Bwd.accum w p) := by
    have key : Post (PA (fun _ => True) w.g.length) (ND.binary w.g .Add ((w.grad p.1).getD 0) p.2) := cl_binary ⟨fun _ _ => trivial, Nat.le_refl _, fun _ _ _ _ _ => trivial⟩ trivial trivial
    unfold Bwd.accum
    cases hg : w.grad p.1 with
    | none => exact Post.pure (Nat.le_refl _)
    | some o => rw [hg] at key; exact key.bind fun q hq => Post.pure hq.2.le
  exact this _ h

theorem cl_visit {A : Scalar V} {w : World V} (h : WCl P N w0 w) {t : Nat} (htl : t < w.g.length) (ht : P t) : Post (fun w' => WCl P N w0 w' ∧ w.g.length ≤ w'.g.length) (Bwd.visit A w t) := by
  unfold Bwd.visit
  cases hg : w.grad t with
  | none => exact Post.error
  | some gr =>
    have hin := h.inp t htl ht
    have hlen : Post (PL (fun _ => True) w.g.length) (Bwd.rule A w.g t gr) := cl_rule ⟨fun _ _ => trivial, Nat.le_refl _, fun _ _ _ _ _ => trivial⟩ htl trivial trivial
    refine Post.bind (Q := fun q => PL P N q ∧ w.g.length ≤ q.2.length) (fun q hq => ⟨cl_rule h.toCl htl ht (h.grd _ _ ht hg) q hq, (hlen q hq).2.le⟩) fun q hq => ?_
    refine Post.foldlM (Q := fun w' => WCl P N w0 w' ∧ w.g.length ≤ w'.g.length) (fun w' hw' p hp => fun w'' hw'' => ?_) ⟨⟨hq.1.2, h.grd, h.out⟩, hq.2⟩
    have hm := List.of_mem_zip hp
    exact ⟨cl_accum hw'.1 (hin _ hm.1) (hq.1.1 _ hm.2) w'' hw'', Nat.le_trans hw'.2 (accum_length hw'')⟩

theorem Cl.reach (h : Cl P N g) (hw : WF g) {a i : Nat} (ha : a < g.length) (hp : P a) (hr : Reach g a i) : P i := by
  induction hr with
  | refl => exact hp
  | @step i x hr hx ih => exact h.inp i (Nat.lt_of_le_of_lt (hr.le hw ha) ha) ih x hx

/-- `backward` on an array in `P` keeps all references within `P`. -/
theorem cl_backward {A : Scalar V} {w : World V} (hw : WF w.g) (hn : NN w.g) (hs : GradShapes w) (h : WCl P N w0 w) {y : Nat} (hyl : y < w.g.length) (hy : P y) :
    Post (WCl P N w0) (Bwd.backward A w y) := by
  obtain ⟨b0, _⟩ := seed_ok A hw hn hs hyl
  have h1 : WCl P N w0 (Bwd.seed A w y) := by
    unfold Bwd.seed
    split
    · exact h
    · have h1 : PA P N (ND.onesLike A w.g y) := cl_const h.toCl
      exact h.setGrad hy h1.1 h1.2
  have hyl1 : y < (Bwd.seed A w y).g.length := Nat.lt_of_lt_of_le hyl b0.ext.length
  obtain ⟨seen, ord, e, _, _, hmem, _⟩ := dfs_root b0.wf hyl1
  unfold Bwd.backward
  simp only [e]
  refine Post.mono (Q := fun w' => WCl P N w0 w' ∧ (Bwd.seed A w y).g.length ≤ w'.g.length) (Post.foldlM (fun w' hw' t ht => ?_) ⟨h1, Nat.le_refl _⟩) fun _ h => h.1
  have hr := ((hmem t).1 (List.mem_reverse.1 ht)).1
  exact (cl_visit hw'.1 (Nat.lt_of_lt_of_le (Nat.lt_of_le_of_lt (hr.le b0.wf hyl1) hyl1) hw'.2) (h1.toCl.reach b0.wf hyl1 hy hr)).mono fun w'' h'' => ⟨h''.1, Nat.le_trans hw'.2 h''.2⟩

/-- Some of the arrays of a closed graph. -/
theorem Cl.before {g' : Graph V} (h : Cl P N g) (hl : N ≤ g'.length) (hp : g' <+: g) : Cl P N g' :=
  ⟨h.new, hl, fun i hi hP x hx => h.inp i (Nat.lt_of_lt_of_le hi hp.length_le) hP x (by rw [(show Ext g' g from hp).ctx hi]; exact hx)⟩

theorem cl_seed {A : Scalar V} {w : World V} (h : WCl P N w0 w) {y : Nat} (hy : P y) : WCl P N w0 (Bwd.seed A w y) := by
  unfold Bwd.seed
  split
  · exact h
  · have h1 : PA P N (ND.onesLike A w.g y) := cl_const h.toCl
    exact h.setGrad hy h1.1 h1.2

/-- Visiting arrays in `P`. -/
theorem cl_visits {A : Scalar V} {w w' : World V} (h : WCl P N w0 w) {l : List Nat} (hl : ∀ t ∈ l, t < w.g.length ∧ P t) (hv : l.foldlM (Bwd.visit A) w = .ok w') :
    WCl P N w0 w' ∧ w.g.length ≤ w'.g.length :=
  Post.foldlM (Q := fun w' => WCl P N w0 w' ∧ w.g.length ≤ w'.g.length) (fun _ hw' t ht => (cl_visit hw'.1 (Nat.lt_of_lt_of_le (hl t ht).1 hw'.2) (hl t ht).2).mono
    fun _ h'' => ⟨h''.1, Nat.le_trans hw'.2 h''.2⟩) ⟨h, Nat.le_refl _⟩ w' hv

/-- The arrays `backward` visits are in `P`. -/
theorem cl_order {A : Scalar V} {w : World V} (hw : WF w.g) (hn : NN w.g) (hs : GradShapes w) (h : WCl P N w0 w) {y : Nat} (hyl : y < w.g.length) (hy : P y) {seen funcs : List Nat}
    (hd : Bwd.dfs (Bwd.seed A w y).g (y + 1) y ([], []) = .ok (seen, funcs)) : ∀ t ∈ funcs.reverse, t < (Bwd.seed A w y).g.length ∧ P t := by
  obtain ⟨b0, _⟩ := seed_ok A hw hn hs hyl
  have hyl1 : y < (Bwd.seed A w y).g.length := Nat.lt_of_lt_of_le hyl b0.ext.length
  obtain ⟨seen', ord, e, _, _, hmem, _⟩ := dfs_root b0.wf hyl1
  rw [hd] at e; cases e
  intro t ht
  have hr := ((hmem t).1 (List.mem_reverse.1 ht)).1
  exact ⟨Nat.lt_of_le_of_lt (hr.le b0.wf hyl1) hyl1, (cl_seed (A := A) h hy).toCl.reach b0.wf hyl1 hy hr⟩

/-- So does `backward` left in the middle. -/
theorem cl_stopped {A : Scalar V} {w w' : World V} (hw : WF w.g) (hn : NN w.g) (hs : GradShapes w) (h : WCl P N w0 w) {y : Nat} (hyl : y < w.g.length) (hy : P y) (hst : Bwd.Stopped A w y w') :
    WCl P N w0 w' := by
  have h1 := cl_seed (A := A) h hy
  cases hst with
  | start => exact h
  | seeding e1 e2 => exact ⟨h1.toCl.before (Nat.le_trans h.le e1.length_le) e2, h.grd, h.out⟩
  | seeded => exact h1
  | @rule seen funcs pre post gxs t gr w1 g g' hd hsp hf hgr hru e1 e2 =>
    have hord := cl_order hw hn hs h hyl hy hd
    obtain ⟨k1, l1⟩ := cl_visits h1 (fun t ht => hord t (by rw [hsp]; simp [ht])) hf
    obtain ⟨t1, t2⟩ := hord t (by rw [hsp]; simp)
    have hr := (cl_rule k1.toCl (Nat.lt_of_lt_of_le t1 l1) t2 (k1.grd _ _ t2 hgr) _ hru).2
    exact ⟨hr.before (Nat.le_trans k1.le e1.length_le) e2, k1.grd, k1.out⟩
  | @adding seen funcs pre post gxs t gr w1 w2 w3 g g' done rest p hd hsp hf hgr hru hz hdone hp e1 e2 =>
    have hord := cl_order hw hn hs h hyl hy hd
    obtain ⟨k1, l1⟩ := cl_visits h1 (fun t ht => hord t (by rw [hsp]; simp [ht])) hf
    obtain ⟨t1, t2⟩ := hord t (by rw [hsp]; simp)
    have htl := Nat.lt_of_lt_of_le t1 l1
    have hr := cl_rule k1.toCl htl t2 (k1.grd _ _ t2 hgr) _ hru
    have hin := k1.inp t htl t2
    have hpair : ∀ q ∈ done ++ p :: rest, P q.1 ∧ P q.2 := fun q hq => by
      have hm := List.of_mem_zip (hz ▸ hq)
      exact ⟨hin _ hm.1, hr.1 _ hm.2⟩
    have k0 : WCl P N w0 { w1 with g := g } := ⟨hr.2, k1.grd, k1.out⟩
    have k2 : WCl P N w0 w2 := Post.foldlM (Q := WCl P N w0) (f := Bwd.accum) (l := done)
      (fun _ hw' q hq => cl_accum hw' (hpair q (List.mem_append_left _ hq)).1 (hpair q (List.mem_append_left _ hq)).2) k0 w2 hdone
    have k3 := cl_accum k2 (hpair p (by simp)).1 (hpair p (by simp)).2 w3 hp
    exact ⟨k3.toCl.before (Nat.le_trans k2.le e1.length_le) e2, k2.grd, k2.out⟩

theorem WCl.made {w : World V} (h : WCl P N w0 w) {q : Nat × Graph V} (hq : PA P N q) : Post (fun r => (∀ i, r.1 = .arr i → P i) ∧ WCl P N w0 r.2) (made w q) :=
  Post.pure ⟨fun i hi => by cases hi; exact hq.1, hq.2, h.grd, h.out⟩

theorem WCl.madeE {w : World V} (h : WCl P N w0 w) {q : Except Err (Nat × Graph V)} (hq : Post (PA P N) q) : Post (fun r => (∀ i, r.1 = .arr i → P i) ∧ WCl P N w0 r.2) (madeE w q) :=
  Post.bind hq fun _ ha => h.made ha

/-- An API call on arrays in `P` returns an array in `P` and keeps all references within `P`. -/
theorem cl_step {b : Backend V} {w : World V} (hb : Faithful b) (hi0 : Inv b w) (h : WCl P N w0 w) {c : Call V} (hc : ∀ a ∈ c.arrays, P a) (hok : ArgsOK b w c) :
    Post (fun r => (∀ i, r.1 = .arr i → P i) ∧ WCl P N w0 r.2) (step b w c) := by
  unfold step
  split
  case isFalse => exact Post.error
  rename_i hin
  have hcl := h.toCl
  cases c <;> simp only [Call.arrays, List.mem_cons, List.not_mem_nil, or_false, forall_eq, forall_eq_or_imp] at hc hin <;> simp only [exec1]
  case array v => exact h.madeE (cl_array hcl)
  case arange n => exact h.madeE (cl_array hcl)
  case full s v => exact h.made (cl_const hcl)
  case fullLike a v => exact h.made (cl_const hcl)
  case onesLike a => exact h.made (cl_const hcl)
  case zerosLike a => exact h.made (cl_const hcl)
  case un op a => exact h.made (cl_unary hcl hc)
  case bin op x y => exact h.madeE (cl_binary hcl hc.1 hc.2)
  case binScalar op x v =>
    have h1 : PA P N (ND.constScalar b.A w.g v) := cl_const hcl
    exact h.madeE (cl_binary h1.2 hc h1.1)
  case sum a ax kd => exact h.madeE (cl_sum hcl hc)
  case getitem a s => exact h.madeE (cl_getitem hcl hc)
  case broadcastTo a s => exact h.made (cl_broadcastTo hcl hc)
  case reshape a s => exact h.madeE (cl_reshape hcl hc)
  case T a => exact h.madeE (cl_T hcl hc)
  case transpose a s => exact h.madeE (cl_transpose hcl hc)
  case contiguous a => exact h.made (cl_contiguous hcl hc)
  case pad a d x y => exact h.madeE (cl_pad hcl hc)
  case dilate a d s => exact h.madeE (cl_dilate hcl hc)
  case materialize a =>
    intro r hr
    obtain ⟨w', e, hm⟩ := materialize_step hb hi0 hin hok
    rw [e] at hr; cases hr
    refine ⟨by simp, by rw [hm.g]; exact hcl, by rw [hm.grad]; exact h.grd, fun i hi => ?_⟩
    have := materialize_foot hi0 hin hok e (i := i) (fun hr => hi (hcl.reach hi0.winv.wf hin hc hr))
    rw [this.1, this.2, hm.grad]; exact h.out i hi
  case tolist a =>
    intro r hr
    cases ht : tolist b w a with
    | error e => rw [ht] at hr; cases hr
    | ok p =>
      rw [ht] at hr; cases hr
      obtain ⟨l, cpu, ev, e, _⟩ := tolist_ok hi0.winv hin (tolist_avail ht)
      rw [ht] at e; cases e
      refine ⟨by simp, hcl, h.grd, fun i hi => ?_⟩
      have := tolist_foot ht (i := i) (fun he => hi (he ▸ hcl.reach hi0.winv.wf hin hc (base_reach hi0.winv.wf hin)))
      rw [this.1, this.2]; exact h.out i hi
  case backward a =>
    intro r hr
    cases hbk : Bwd.backward b.A w a with
    | error e => rw [hbk] at hr; cases hr
    | ok w' =>
      rw [hbk] at hr; cases hr
      exact ⟨by simp, cl_backward hi0.winv.wf hi0.nn hi0.gs h hin hc w' hbk⟩
  case grad a =>
    refine Post.pure ⟨fun i he => ?_, h⟩
    cases hg : w.grad a with
    | none => simp only [hg] at he; cases he
    | some k => simp only [hg, Out.arr.injEq] at he; subst he; exact h.grd _ _ hc hg
  case clearGrad a =>
    refine Post.pure ⟨by simp, hcl, fun i k hp hk => ?_, fun i hi => ?_⟩
    · simp only at hk
      split at hk
      · cases hk
      · exact h.grd i k hp hk
    · have hne : i ≠ a := fun e => hi (e ▸ hc)
      simpa [hne] using h.out i hi
  case setGrad a k =>
    refine Post.pure ⟨by simp, hcl, fun i k' hp hk => ?_, fun i hi => ?_⟩
    · simp only at hk
      split at hk
      · cases hk; exact hc.2
      · exact h.grd i k' hp hk
    · have hne : i ≠ a := fun e => hi (e ▸ hc.1)
      simpa [hne] using h.out i hi
  case reset => exact Post.pure ⟨by simp, hcl, h.grd, h.out⟩

/-! ### Collection -/

theorem collect_inv {b : Backend V} {w : World V} (h : Inv b w) (i : Nat) : Inv b (w.collect i) := by
  have hcb : ∀ j ≠ i, cpuBuf (w.collect i) j = cpuBuf w j := fun j hj => by unfold cpuBuf World.collect; simp [hj]
  refine ⟨⟨h.winv.wf, h.winv.nn, fun j l hl => ?_, fun j l hl => ?_, h.winv.cache, ?_⟩, h.nn, fun j k hk => ?_, fun hp => ⟨(h.acc hp).nodup, (h.acc hp).keys, (h.acc hp).hist, (h.acc hp).hits, (h.acc hp).tick⟩⟩
  · simp only [World.collect] at hl
    split at hl
    · cases hl
    · exact h.winv.cpu j l hl
  · simp only [World.collect] at hl
    split at hl
    · cases hl
    · exact h.winv.dev j l hl
  · have hev := h.winv.ev
    unfold EvInv at hev ⊢
    cases hd : w.dev i with
    | none =>
      have e1 : (w.collect i).dev = w.dev := by
        funext j; simp only [World.collect]; split
        · rename_i e; rw [e, hd]
        · rfl
      have e2 : (w.collect i).ev = w.ev := by simp [World.collect, hd]
      rw [e1, e2]
      refine ⟨hev.ok, hev.dev, fun j hj hs => (hev.src j hj hs).imp_left fun p => ⟨?_, p.2⟩⟩
      have hji : j ≠ i := fun e => by rw [e, hd] at hs; cases hs
      show (cpuBuf (w.collect i) j).isSome
      rw [hcb j hji]; exact p.1
    | some l =>
      have hf := EvSt.free (i := i) hev (by rw [hd]; rfl)
      have e2 : (w.collect i).ev = w.ev ++ [.free i] := by simp [World.collect, hd]
      rw [e2]
      refine ⟨hf.ok, hf.dev, fun j hj hs => (hf.src j hj hs).imp_left fun p => ⟨?_, p.2⟩⟩
      have hji : j ≠ i := fun e => by rw [e] at hs; simp [World.collect] at hs
      show (cpuBuf (w.collect i) j).isSome
      rw [hcb j hji]; exact p.1
  · simp only [World.collect] at hk
    split at hk
    · cases hk
    · exact h.gs j k hk

theorem _root_.Whale.Hist.Live.mono {w : World V} {R R' : List Nat} (h : R ⊆ R') {i : Nat} (hi : Live w R i) : Live w R' i := by
  induction hi with
  | root hm => exact .root (h hm)
  | input _ hx ih => exact .input ih hx
  | grad _ hk ih => exact .grad ih hk

theorem _root_.Whale.Hist.Live.of_collect {w : World V} {R : List Nat} {j i : Nat} (hi : Live (w.collect j) R i) : Live w R i := by
  induction hi with
  | root hm => exact .root hm
  | input _ hx ih => exact .input ih hx
  | grad _ hk ih =>
    simp only [World.collect] at hk
    split at hk
    · cases hk
    · exact .grad ih hk

theorem inputs_lt_length {g : Graph V} (i : Nat) (h : (g.ctx i).inputs ≠ []) : i < g.length := by
  by_contra hn
  apply h
  unfold Graph.ctx Graph.nd
  rw [List.getD_eq_getElem?_getD, List.getElem?_eq_none (by omega)]
  rfl

theorem live_wcl {b : Backend V} {w : World V} (hi : Inv b w) (R : List Nat) : WCl (fun i => Live w R i ∨ w.g.length ≤ i) w.g.length w w := by
  refine ⟨⟨fun _ h => .inr h, Nat.le_refl _, fun j hj hp x hx => ?_⟩, fun j k hp hk => ?_, fun _ _ => ⟨rfl, rfl, rfl⟩⟩
  · exact .inl (.input (hp.resolve_right (by omega)) hx)
  · have := (hi.gs j k hk).1
    exact .inl (.grad (hp.resolve_right (by omega)) hk)

/-- After a call, only new arrays and arrays that were alive before are alive. -/
theorem step_live {b : Backend V} (hb : Faithful b) {w : World V} (hi : Inv b w) {R : List Nat} {c : Call V} (hc : ∀ a ∈ c.arrays, a ∈ R) (hok : ArgsOK b w c) {o : Out V} {w' : World V}
    (hs : step b w c = .ok (o, w')) {i : Nat} (hl : Live w' (held R o) i) : Live w R i ∨ w.g.length ≤ i := by
  obtain ⟨h1, h2⟩ := cl_step hb hi (live_wcl hi R) (fun a ha => .inl (.root (hc a ha))) hok _ hs
  refine h2.live (fun i h => inputs_lt_length i h) (fun j hj => ?_) hl
  cases o with
  | arr r =>
    rcases List.mem_cons.1 hj with rfl | hj
    · exact h1 _ rfl
    · exact .inl (.root hj)
  | list l => exact .inl (.root hj)
  | unit => exact .inl (.root hj)

/-- A call changes nothing about arrays that are not alive. -/
theorem step_foot {b : Backend V} (hb : Faithful b) {w : World V} (hi : Inv b w) {R : List Nat} {c : Call V} (hc : ∀ a ∈ c.arrays, a ∈ R) (hok : ArgsOK b w c) {o : Out V} {w' : World V}
    (hs : step b w c = .ok (o, w')) {i : Nat} (hlt : i < w.g.length) (hl : ¬ Live w R i) : w'.cpu i = w.cpu i ∧ w'.dev i = w.dev i ∧ w'.grad i = w.grad i :=
  (cl_step hb hi (live_wcl hi R) (fun a ha => .inl (.root (hc a ha))) hok _ hs).2.out i (fun h => h.elim hl (by omega))

theorem stopped_live {b : Backend V} {w : World V} (hi : Inv b w) {R : List Nat} {y : Nat} (hy : y ∈ R) (hyl : y < w.g.length) {w' : World V}
    (hs : Bwd.Stopped b.A w y w') {i : Nat} (hl : Live w' R i) : Live w R i ∨ w.g.length ≤ i :=
  (cl_stopped hi.winv.wf hi.nn hi.gs (live_wcl hi R) hyl (.inl (.root hy)) hs).live (fun i h => inputs_lt_length i h) (fun _ hj => .inl (.root hj)) hl

theorem stopped_foot {b : Backend V} {w : World V} (hi : Inv b w) {R : List Nat} {y : Nat} (hy : y ∈ R) (hyl : y < w.g.length) {w' : World V}
    (hs : Bwd.Stopped b.A w y w') {i : Nat} (hlt : i < w.g.length) (hl : ¬ Live w R i) : w'.cpu i = w.cpu i ∧ w'.dev i = w.dev i ∧ w'.grad i = w.grad i :=
  (cl_stopped hi.winv.wf hi.nn hi.gs (live_wcl hi R) hyl (.inl (.root hy)) hs).out i (fun h => h.elim hl (by omega))

/-- What holds after any history with garbage collection. -/
structure InvC (b : Backend V) (w : World V) (R G : List Nat) : Prop where
  inv : Inv b w
  held : ∀ i ∈ R, i < w.g.length
  dead : ∀ i ∈ G, i < w.g.length ∧ ¬ Live w R i
  gone : ∀ i ∈ G, w.cpu i = none ∧ w.dev i = none ∧ w.grad i = none

/-- What survives: everything not collected. -/
structure LaterC (w w' : World V) (G' : List Nat) : Prop where
  ext : Ext w.g w'.g
  cpuMono : ∀ i, i ∉ G' → (w.cpu i).isSome → (w'.cpu i).isSome
  devMono : ∀ i, i ∉ G' → (w.dev i).isSome → (w'.dev i).isSome

theorem Inv.initC (b : Backend V) : InvC b (Mat.init : World V) [] [] := ⟨Inv.init b, by simp, by simp, by simp⟩

theorem RunsG.inv {b : Backend V} (hb : Faithful b) {w w' : World V} {R G R' G' : List Nat} (h : InvC b w R G) (hr : RunsG b w R G w' R' G') : InvC b w' R' G' ∧ LaterC w w' G' ∧ G ⊆ G' := by
  induction hr with
  | refl => exact ⟨h, ⟨.refl _, fun _ _ h => h, fun _ _ h => h⟩, fun _ h => h⟩
  | @call w1 w' R1 G1 c o _ hc hok hs ih =>
    obtain ⟨i1, l1, s1⟩ := ih
    have k := step_ok hb i1.inv hok hs
    refine ⟨⟨k.inv, fun i hi => ?_, fun i hi => ⟨Nat.lt_of_lt_of_le (i1.dead i hi).1 k.later.ext.length, fun hl => ?_⟩, fun i hi => ?_⟩,
      ⟨l1.ext.trans k.later.ext, fun i hi hs => k.later.cpuMono i (l1.cpuMono i hi hs), fun i hi hs => k.later.devMono i (l1.devMono i hi hs)⟩, s1⟩
    · cases o with
      | arr r =>
        rcases List.mem_cons.1 hi with rfl | hi
        · exact k.lt _ rfl
        · exact Nat.lt_of_lt_of_le (i1.held i hi) k.later.ext.length
      | list l => exact Nat.lt_of_lt_of_le (i1.held i hi) k.later.ext.length
      | unit => exact Nat.lt_of_lt_of_le (i1.held i hi) k.later.ext.length
    · rcases step_live hb i1.inv hc hok hs hl with h | h
      · exact (i1.dead i hi).2 h
      · have := (i1.dead i hi).1; omega
    · obtain ⟨e1, e2, e3⟩ := step_foot hb i1.inv hc hok hs (i1.dead i hi).1 (i1.dead i hi).2
      rw [e1, e2, e3]; exact i1.gone i hi
  | raise _ _ _ _ ih => exact ih
  | @stopped w1 w' R1 G1 y _ hy hok hs ih =>
    obtain ⟨i1, l1, s1⟩ := ih
    have hyl := i1.held y hy
    obtain ⟨i2, l2⟩ := stopped_ok i1.inv hyl hok hs
    refine ⟨⟨i2, fun i hi => Nat.lt_of_lt_of_le (i1.held i hi) l2.ext.length, fun i hi => ⟨Nat.lt_of_lt_of_le (i1.dead i hi).1 l2.ext.length, fun hl => ?_⟩, fun i hi => ?_⟩,
      ⟨l1.ext.trans l2.ext, fun i hi hs => l2.cpuMono i (l1.cpuMono i hi hs), fun i hi hs => l2.devMono i (l1.devMono i hi hs)⟩, s1⟩
    · rcases stopped_live i1.inv hy hyl hs hl with h | h
      · exact (i1.dead i hi).2 h
      · have := (i1.dead i hi).1; omega
    · obtain ⟨e1, e2, e3⟩ := stopped_foot i1.inv hy hyl hs (i1.dead i hi).1 (i1.dead i hi).2
      rw [e1, e2, e3]; exact i1.gone i hi
  | drop _ hsub ih =>
    obtain ⟨i1, l1, s1⟩ := ih
    exact ⟨⟨i1.inv, fun i hi => i1.held i (hsub hi), fun i hi => ⟨(i1.dead i hi).1, fun hl => (i1.dead i hi).2 (hl.mono hsub)⟩, i1.gone⟩, l1, s1⟩
  | @collect w1 R1 G1 j _ hlt hnl hnG ih =>
    obtain ⟨i1, l1, s1⟩ := ih
    refine ⟨⟨collect_inv i1.inv j, i1.held, fun i hi => ?_, fun i hi => ?_⟩, ⟨l1.ext, fun i hi hs => ?_, fun i hi hs => ?_⟩, fun x hx => List.mem_cons_of_mem _ (s1 hx)⟩
    · rcases List.mem_cons.1 hi with rfl | hi
      · exact ⟨hlt, fun hl => hnl hl.of_collect⟩
      · exact ⟨(i1.dead i hi).1, fun hl => (i1.dead i hi).2 hl.of_collect⟩
    · simp only [World.collect]
      split
      · exact ⟨rfl, rfl, rfl⟩
      · rename_i hne
        exact i1.gone i ((List.mem_cons.1 hi).resolve_left hne)
    · have hne : i ≠ j := fun e => hi (by simp [e])
      simpa [World.collect, hne] using l1.cpuMono i (fun hm => hi (List.mem_cons_of_mem _ hm)) hs
    · have hne : i ≠ j := fun e => hi (by simp [e])
      simpa [World.collect, hne] using l1.devMono i (fun hm => hi (List.mem_cons_of_mem _ hm)) hs

end Whale
