import Verif.Spec.Cache
import Verif.Proofs.Materialize
/-
C25: kernels with the same key and the same function signature have the same code.
-/
namespace Whale
open Mat Algo Codegen
variable {V : Type}

/-! ### index expressions -/

theorem genI_key : ∀ (a b : IExpr) (n : Nat), ikey a = ikey b → genI a n = genI b n
  | .index l, b, n, h => by
    cases b <;> simp only [ikey, IKey.idx.injEq, reduceCtorEq] at h
    simp only [genI, h.1]
  | .const c, b, n, h => by
    cases b <;> simp only [ikey, IKey.const.injEq, reduceCtorEq] at h
    rw [h]
  | .bin op l r, b, n, h => by
    cases b <;> simp only [ikey, IKey.bin.injEq, reduceCtorEq] at h
    obtain ⟨rfl, h1, h2⟩ := h
    simp only [genI, genI_key _ _ _ h1]
    congr 1
    congr 1
    funext p
    simp only [genI_key _ _ _ h2]

theorem genIs_key : ∀ (a b : List IExpr) (n : Nat), a.map ikey = b.map ikey → genIs a n = genIs b n
  | [], b, n, h => by cases b <;> simp at h; rfl
  | e :: es, b, n, h => by
    cases b with
    | nil => simp at h
    | cons f fs =>
      simp only [List.map_cons, List.cons.injEq] at h
      simp only [genIs, genI_key _ _ _ h.1]
      congr 1
      funext p
      simp only [genIs_key _ _ _ h.2]

/-! ### value expressions -/

def nameExt (l : LoopIndex) : VName × Int := (l.name, l.extent)

theorem redLoops_key : ∀ (a b : List LoopIndex) (s : Stmt), a.map nameExt = b.map nameExt → redLoops a s = redLoops b s
  | [], b, s, h => by cases b <;> simp at h; rfl
  | l :: ls, b, s, h => by
    cases b with
    | nil => simp at h
    | cons m ms =>
      simp only [List.map_cons, List.cons.injEq, nameExt, Prod.mk.injEq] at h
      simp only [redLoops, h.1.1, h.1.2, redLoops_key ls ms s h.2]

/-- Same expression up to what the code generator cannot see. -/
def SameE (g1 g2 : Graph V) (t1 t2 : Tbl) (a1 a2 : Args) : DExpr → DExpr → Prop
  | .const c, .const c' => c = c'
  | .un op e, .un op' e' => op = op' ∧ SameE g1 g2 t1 t2 a1 a2 e e'
  | .bin op l r, .bin op' l' r' => op = op' ∧ SameE g1 g2 t1 t2 a1 a2 l l' ∧ SameE g1 g2 t1 t2 a1 a2 r r'
  | .red op e rs, .red op' e' rs' => op = op' ∧ rs.map nameExt = rs'.map nameExt ∧ SameE g1 g2 t1 t2 a1 a2 e e'
  | .func f idx, .func f' idx' => idx.map ikey = idx'.map ikey ∧ fncName a1 f = fncName a2 f' ∧ (t1 f).map (·.outShape) = (t2 f').map (·.outShape)
  | .buf n idx, .buf n' idx' => idx.map ikey = idx'.map ikey ∧ bufName a1 n = bufName a2 n' ∧ g1.offset n = g2.offset n' ∧ g1.strides n = g2.strides n'
  | _, _ => False

theorem genD_same {g1 g2 : Graph V} {t1 t2 : Tbl} {a1 a2 : Args} (dt : DType) : ∀ (e1 e2 : DExpr) (n : Nat), SameE g1 g2 t1 t2 a1 a2 e1 e2 → genD g1 t1 a1 dt e1 n = genD g2 t2 a2 dt e2 n
  | .const c, e2, n, h => by
    cases e2 <;> simp only [SameE] at h
    subst h; rfl
  | .un op e, e2, n, h => by
    cases e2 <;> simp only [SameE] at h
    obtain ⟨rfl, h⟩ := h
    simp only [genD, genD_same dt e _ n h]
  | .bin op l r, e2, n, h => by
    cases e2 <;> simp only [SameE] at h
    obtain ⟨rfl, h1, h2⟩ := h
    simp only [genD, genD_same dt l _ n h1]
    congr 1
    congr 1
    funext p
    simp only [genD_same dt r _ _ h2]
  | .red op e rs, e2, n, h => by
    cases e2 <;> simp only [SameE] at h
    obtain ⟨rfl, h1, h2⟩ := h
    simp only [genD, genD_same dt e _ n h2]
    congr 1
    funext p
    rw [redLoops_key _ _ _ h1]
  | .func f idx, e2, n, h => by
    cases e2 <;> simp only [SameE] at h
    rename_i f' idx'
    obtain ⟨h1, h2, h3⟩ := h
    simp only [genD, h2, genIs_key _ _ _ h1]
    congr 1
    funext _
    congr 1
    funext p
    cases ht : t1 f <;> cases ht' : t2 f' <;> simp only [ht, ht', Option.map_none, Option.map_some, reduceCtorEq, Option.some.injEq] at h3 ⊢
    rw [h3]
  | .buf b idx, e2, n, h => by
    cases e2 <;> simp only [SameE] at h
    obtain ⟨h1, h2, h3, h4⟩ := h
    simp only [genD, h2, genIs_key _ _ _ h1, h3, h4]
  | .tern .., e2, n, h => by cases e2 <;> simp only [SameE] at h

/-! ### the key -/

/-- What a numbering of buffers does: extends the list, without repetitions. -/
structure Ext1 (ids ids' : List Nat) : Prop where
  pre : ids <+: ids'
  nodup : ids.Nodup → ids'.Nodup

theorem Ext1.refl (l : List Nat) : Ext1 l l := ⟨List.prefix_refl _, id⟩
theorem Ext1.trans {a b c : List Nat} (h : Ext1 a b) (k : Ext1 b c) : Ext1 a c := ⟨h.pre.trans k.pre, fun x => k.nodup (h.nodup x)⟩

/-- Length of the numbering after a key, given the length before. -/
def EKey.width : EKey → Nat → Nat
  | .none, n | .const _, n => n
  | .un _ e, n | .red _ _ e, n | .fnc e _, n => e.width n
  | .bin _ l r, n => r.width (l.width n)
  | .buf id .., n => max n (id + 1)

theorem idxOf_prefix {l m : List Nat} (h : l <+: m) {x : Nat} (hx : x ∈ l) : m.idxOf x = l.idxOf x := by
  obtain ⟨r, rfl⟩ := h
  rw [List.idxOf_append_of_mem hx]

theorem ekeyE_ext {g : Graph V} {visit : Nat → List Nat → Except Err (EKey × List Nat)}
    (hv : ∀ f ids k ids', visit f ids = .ok (k, ids') → Ext1 ids ids' ∧ ids'.length = k.width ids.length) :
    ∀ (e : DExpr) (ids : List Nat) (k : EKey) (ids' : List Nat), ekeyE g visit e ids = .ok (k, ids') → Ext1 ids ids' ∧ ids'.length = k.width ids.length
  | .const c, ids, k, ids', h => by cases h; exact ⟨.refl _, rfl⟩
  | .un op e, ids, k, ids', h => by
    simp only [ekeyE] at h
    obtain ⟨⟨k1, i1⟩, h1, h2⟩ := except_bind_ok h
    cases h2
    exact ekeyE_ext hv e ids k1 _ h1
  | .bin op l r, ids, k, ids', h => by
    simp only [ekeyE] at h
    obtain ⟨⟨k1, i1⟩, h1, h⟩ := except_bind_ok h
    obtain ⟨⟨k2, i2⟩, h2, h⟩ := except_bind_ok h
    cases h
    obtain ⟨a1, b1⟩ := ekeyE_ext hv l ids k1 _ h1
    obtain ⟨a2, b2⟩ := ekeyE_ext hv r i1 k2 _ h2
    exact ⟨a1.trans a2, by simp only [EKey.width]; rw [b2, b1]⟩
  | .tern .., ids, k, ids', h => by cases h; exact ⟨.refl _, rfl⟩
  | .red op e rs, ids, k, ids', h => by
    simp only [ekeyE] at h
    obtain ⟨⟨k1, i1⟩, h1, h2⟩ := except_bind_ok h
    cases h2
    exact ekeyE_ext hv e ids k1 _ h1
  | .func f idx, ids, k, ids', h => by
    simp only [ekeyE] at h
    obtain ⟨⟨k1, i1⟩, h1, h2⟩ := except_bind_ok h
    cases h2
    exact hv f ids k1 _ h1
  | .buf n idx, ids, k, ids', h => by
    simp only [ekeyE] at h
    by_cases hn : n ∈ ids
    · simp only [hn, if_true] at h
      cases h
      have := List.idxOf_lt_length_of_mem hn
      exact ⟨.refl _, by simp only [EKey.width]; omega⟩
    · simp only [hn, if_false] at h
      cases h
      refine ⟨⟨List.prefix_append _ _, fun hd => ?_⟩, ?_⟩
      · rw [List.nodup_append]
        exact ⟨hd, by simp, fun x hx y hy => by simp at hy; subst hy; rintro rfl; exact hn hx⟩
      · simp only [EKey.width, List.length_append, List.length_singleton]
        rw [List.idxOf_append_of_notMem hn]
        simp

theorem ekey_ext {g : Graph V} {t : Tbl} : ∀ (fuel : Nat) (e : DExpr) (ids : List Nat) (k : EKey) (ids' : List Nat), ekey g t fuel e ids = .ok (k, ids') →
    Ext1 ids ids' ∧ ids'.length = k.width ids.length
  | 0, e, ids, k, ids', h => by cases h
  | fuel + 1, e, ids, k, ids', h => by
    unfold ekey at h
    refine ekeyE_ext (fun f ids k ids' hv => ?_) e ids k ids' h
    split at hv
    · exact ekey_ext fuel _ ids k ids' hv
    · cases hv

/-- Same expression as far as the key shows: `P`, `Q` number the buffers. -/
def SameK (g1 g2 : Graph V) (P Q : List Nat) : DExpr → DExpr → Prop
  | .const c, .const c' => c = c'
  | .un op e, .un op' e' => op = op' ∧ SameK g1 g2 P Q e e'
  | .bin op l r, .bin op' l' r' => op = op' ∧ SameK g1 g2 P Q l l' ∧ SameK g1 g2 P Q r r'
  | .red op e rs, .red op' e' rs' => op = op' ∧ rs.map nameExt = rs'.map nameExt ∧ SameK g1 g2 P Q e e'
  | .func _ idx, .func _ idx' => idx.map ikey = idx'.map ikey
  | .buf n idx, .buf n' idx' => idx.map ikey = idx'.map ikey ∧ n ∈ P ∧ n' ∈ Q ∧ P.idxOf n = Q.idxOf n' ∧ g1.dtype n = g2.dtype n' ∧ g1.offset n = g2.offset n' ∧ g1.strides n = g2.strides n'
  | _, _ => False

theorem SameK.mono {g1 g2 : Graph V} {P P' Q Q' : List Nat} (hP : P <+: P') (hQ : Q <+: Q') : ∀ {e1 e2 : DExpr}, SameK g1 g2 P Q e1 e2 → SameK g1 g2 P' Q' e1 e2
  | .const c, e2, h => by cases e2 <;> simp only [SameK] at h ⊢; exact h
  | .un op e, e2, h => by
    cases e2 <;> simp only [SameK] at h ⊢
    exact ⟨h.1, SameK.mono hP hQ h.2⟩
  | .bin op l r, e2, h => by
    cases e2 <;> simp only [SameK] at h ⊢
    exact ⟨h.1, SameK.mono hP hQ h.2.1, SameK.mono hP hQ h.2.2⟩
  | .red op e rs, e2, h => by
    cases e2 <;> simp only [SameK] at h ⊢
    exact ⟨h.1, h.2.1, SameK.mono hP hQ h.2.2⟩
  | .func f idx, e2, h => by cases e2 <;> simp only [SameK] at h ⊢; exact h
  | .buf b idx, e2, h => by
    cases e2 <;> simp only [SameK] at h ⊢
    obtain ⟨h1, h2, h3, h4, h5⟩ := h
    exact ⟨h1, hP.subset h2, hQ.subset h3, by rw [idxOf_prefix hP h2, idxOf_prefix hQ h3]; exact h4, h5⟩
  | .tern .., e2, h => by cases e2 <;> simp only [SameK] at h

theorem mem_grow (ids : List Nat) (n : Nat) : n ∈ (if n ∈ ids then ids else ids ++ [n]) := by split <;> simp_all

theorem sameK_of_key {g1 g2 : Graph V} {v1 v2 : Nat → List Nat → Except Err (EKey × List Nat)}
    (hv1 : ∀ f ids k ids', v1 f ids = .ok (k, ids') → Ext1 ids ids' ∧ ids'.length = k.width ids.length)
    (hv2 : ∀ f ids k ids', v2 f ids = .ok (k, ids') → Ext1 ids ids' ∧ ids'.length = k.width ids.length) :
    ∀ (e1 e2 : DExpr) (ids1 ids2 : List Nat) (k : EKey) (j1 j2 : List Nat), k.handled = true → ids1.length = ids2.length →
      ekeyE g1 v1 e1 ids1 = .ok (k, j1) → ekeyE g2 v2 e2 ids2 = .ok (k, j2) → SameK g1 g2 j1 j2 e1 e2
  | .const c, e2, ids1, ids2, k, j1, j2, hh, hl, h1, h2 => by
    cases h1
    cases e2 <;> simp only [ekeyE, pure, Except.pure, Except.ok.injEq, Prod.mk.injEq, EKey.const.injEq, reduceCtorEq, false_and] at h2
    case const => exact h2.1.symm
    all_goals obtain ⟨_, _, h⟩ := except_bind_ok h2; try obtain ⟨_, _, h⟩ := except_bind_ok h
    all_goals cases h
  | .un op e, e2, ids1, ids2, k, j1, j2, hh, hl, h1, h2 => by
    simp only [ekeyE] at h1
    obtain ⟨⟨k1, i1⟩, q1, h1⟩ := except_bind_ok h1
    cases h1
    cases e2 <;> simp only [ekeyE, pure, Except.pure, Except.ok.injEq, Prod.mk.injEq, reduceCtorEq, false_and] at h2
    case un op' e' =>
      obtain ⟨⟨k2, i2⟩, q2, h2⟩ := except_bind_ok h2
      simp only [Except.ok.injEq, Prod.mk.injEq, EKey.un.injEq] at h2
      obtain ⟨⟨rfl, rfl⟩, rfl⟩ := h2
      exact ⟨rfl, sameK_of_key hv1 hv2 e e' ids1 ids2 k2 _ _ (by simpa only [EKey.handled] using hh) hl q1 q2⟩
    all_goals obtain ⟨_, _, h⟩ := except_bind_ok h2; try obtain ⟨_, _, h⟩ := except_bind_ok h
    all_goals cases h
  | .bin op l r, e2, ids1, ids2, k, j1, j2, hh, hl, h1, h2 => by
    simp only [ekeyE] at h1
    obtain ⟨⟨k1, i1⟩, q1, h1⟩ := except_bind_ok h1
    obtain ⟨⟨k2, i2⟩, q2, h1⟩ := except_bind_ok h1
    cases h1
    simp only [EKey.handled, Bool.and_eq_true] at hh
    cases e2 <;> simp only [ekeyE, pure, Except.pure, Except.ok.injEq, Prod.mk.injEq, reduceCtorEq, false_and] at h2
    case bin op' l' r' =>
      obtain ⟨⟨k1', i1'⟩, q1', h2⟩ := except_bind_ok h2
      obtain ⟨⟨k2', i2'⟩, q2', h2⟩ := except_bind_ok h2
      simp only [Except.ok.injEq, Prod.mk.injEq, EKey.bin.injEq] at h2
      obtain ⟨⟨rfl, rfl, rfl⟩, rfl⟩ := h2
      obtain ⟨a1, b1⟩ := ekeyE_ext hv1 l ids1 _ _ q1
      obtain ⟨a2, b2⟩ := ekeyE_ext hv2 l' ids2 _ _ q1'
      obtain ⟨a3, _⟩ := ekeyE_ext hv1 r _ _ _ q2
      obtain ⟨a4, _⟩ := ekeyE_ext hv2 r' _ _ _ q2'
      exact ⟨rfl, (sameK_of_key hv1 hv2 l l' ids1 ids2 _ _ _ hh.1 hl q1 q1').mono a3.pre a4.pre, sameK_of_key hv1 hv2 r r' _ _ _ _ _ hh.2 (by rw [b1, b2, hl]) q2 q2'⟩
    all_goals obtain ⟨_, _, h⟩ := except_bind_ok h2; try obtain ⟨_, _, h⟩ := except_bind_ok h
    all_goals cases h
  | .tern .., e2, ids1, ids2, k, j1, j2, hh, hl, h1, h2 => by cases h1; cases hh
  | .red op e rs, e2, ids1, ids2, k, j1, j2, hh, hl, h1, h2 => by
    simp only [ekeyE] at h1
    obtain ⟨⟨k1, i1⟩, q1, h1⟩ := except_bind_ok h1
    cases h1
    cases e2 <;> simp only [ekeyE, pure, Except.pure, Except.ok.injEq, Prod.mk.injEq, reduceCtorEq, false_and] at h2
    case red op' e' rs' =>
      obtain ⟨⟨k2, i2⟩, q2, h2⟩ := except_bind_ok h2
      simp only [Except.ok.injEq, Prod.mk.injEq, EKey.red.injEq] at h2
      obtain ⟨⟨rfl, hrs, rfl⟩, rfl⟩ := h2
      exact ⟨rfl, hrs.symm, sameK_of_key hv1 hv2 e e' ids1 ids2 k2 _ _ (by simpa only [EKey.handled] using hh) hl q1 q2⟩
    all_goals obtain ⟨_, _, h⟩ := except_bind_ok h2; try obtain ⟨_, _, h⟩ := except_bind_ok h
    all_goals cases h
  | .func f idx, e2, ids1, ids2, k, j1, j2, hh, hl, h1, h2 => by
    simp only [ekeyE] at h1
    obtain ⟨⟨k1, i1⟩, q1, h1⟩ := except_bind_ok h1
    cases h1
    cases e2 <;> simp only [ekeyE, pure, Except.pure, Except.ok.injEq, Prod.mk.injEq, reduceCtorEq, false_and] at h2
    case func f' idx' =>
      obtain ⟨⟨k2, i2⟩, q2, h2⟩ := except_bind_ok h2
      simp only [Except.ok.injEq, Prod.mk.injEq, EKey.fnc.injEq] at h2
      exact h2.1.2.symm
    all_goals obtain ⟨_, _, h⟩ := except_bind_ok h2; try obtain ⟨_, _, h⟩ := except_bind_ok h
    all_goals cases h
  | .buf n idx, e2, ids1, ids2, k, j1, j2, hh, hl, h1, h2 => by
    cases h1
    cases e2 <;> simp only [ekeyE, pure, Except.pure, Except.ok.injEq, Prod.mk.injEq, reduceCtorEq, false_and] at h2
    case buf n' idx' =>
      simp only [EKey.buf.injEq] at h2
      obtain ⟨⟨h1, h2, h3, h4, h5, h6⟩, rfl⟩ := h2
      exact ⟨h6.symm, mem_grow _ _, mem_grow _ _, h1.symm, h5.symm, h4.symm, h3.symm⟩
    all_goals obtain ⟨_, _, h⟩ := except_bind_ok h2; try obtain ⟨_, _, h⟩ := except_bind_ok h
    all_goals cases h
/-! ### arguments -/

structure BiUnique (R : Nat → Nat → Prop) : Prop where
  right : ∀ {a b b'}, R a b → R a b' → b = b'
  left : ∀ {a a' b}, R a b → R a' b → a = a'

theorem BiUnique.mem_iff {R : Nat → Nat → Prop} (hR : BiUnique R) {l1 l2 : List Nat} (h : List.Forall₂ R l1 l2) {a b : Nat} (hab : R a b) : (a ∈ l1 ↔ b ∈ l2) ∧ l1.idxOf a = l2.idxOf b := by
  induction h with
  | nil => simp
  | @cons x y l1 l2 hxy h ih =>
    by_cases hx : x = a
    · subst hx
      cases hR.right hab hxy
      simp
    · have hy : y ≠ b := by rintro rfl; exact hx (hR.left hxy hab)
      refine ⟨?_, ?_⟩
      · simp only [List.mem_cons, ih.1, Ne.symm hx, Ne.symm hy, false_or]
      · rw [List.idxOf_cons_ne _ hx, List.idxOf_cons_ne _ hy, ih.2]

theorem BiUnique.dedup_aux {R : Nat → Nat → Prop} (hR : BiUnique R) {l1 l2 : List Nat} (h : List.Forall₂ R l1 l2) : ∀ {c1 c2 : List Nat}, List.Forall₂ R c1 c2 →
    List.Forall₂ R (l1.foldl (fun acc x => if x ∈ acc then acc else acc ++ [x]) c1) (l2.foldl (fun acc x => if x ∈ acc then acc else acc ++ [x]) c2) := by
  induction h with
  | nil => intro c1 c2 h; exact h
  | @cons x y l1 l2 hxy h ih =>
    intro c1 c2 hc
    simp only [List.foldl_cons]
    have hm := (hR.mem_iff hc hxy).1
    apply ih
    by_cases hx : x ∈ c1
    · rw [if_pos hx, if_pos (hm.1 hx)]; exact hc
    · rw [if_neg hx, if_neg (fun h => hx (hm.2 h))]
      exact List.rel_append hc (.cons hxy .nil)

theorem BiUnique.dedup {R : Nat → Nat → Prop} (hR : BiUnique R) {l1 l2 : List Nat} (h : List.Forall₂ R l1 l2) : List.Forall₂ R (Algo.dedup l1) (Algo.dedup l2) :=
  hR.dedup_aux h .nil

theorem forall₂_split {R : Nat → Nat → Prop} : ∀ {a b c d : List Nat}, a.length = b.length → List.Forall₂ R (a ++ c) (b ++ d) → List.Forall₂ R a b ∧ List.Forall₂ R c d
  | [], [], _, _, _, h => ⟨.nil, h⟩
  | [], _ :: _, _, _, h, _ => by simp at h
  | _ :: _, [], _, _, h, _ => by simp at h
  | x :: a, y :: b, c, d, hl, h => by
    simp only [List.cons_append, List.forall₂_cons] at h
    obtain ⟨h1, h2⟩ := forall₂_split (a := a) (b := b) (by simpa using hl) h.2
    exact ⟨.cons h.1 h1, h2⟩

theorem SameK.lens {g1 g2 : Graph V} {P Q : List Nat} : ∀ {e1 e2 : DExpr}, SameK g1 g2 P Q e1 e2 → (funcRefs e1).length = (funcRefs e2).length
  | .const c, e2, h => by cases e2 <;> simp only [SameK] at h; rfl
  | .un op e, e2, h => by
    cases e2 <;> simp only [SameK] at h
    have := SameK.lens h.2
    simpa only [funcRefs, bufRefs, reducedVars] using this
  | .bin op l r, e2, h => by
    cases e2 <;> simp only [SameK] at h
    simp only [funcRefs, List.length_append, SameK.lens h.2.1, SameK.lens h.2.2]
  | .red op e rs, e2, h => by
    cases e2 <;> simp only [SameK] at h
    have := SameK.lens h.2.2
    simpa only [funcRefs, bufRefs, reducedVars] using this
  | .func f idx, e2, h => by cases e2 <;> simp only [SameK] at h; rfl
  | .buf b idx, e2, h => by cases e2 <;> simp only [SameK] at h; rfl
  | .tern .., e2, h => by cases e2 <;> simp only [SameK] at h

/-- Two constants that play the same role. -/
def BufRel (g1 g2 : Graph V) (P Q : List Nat) (n m : Nat) : Prop :=
  n ∈ P ∧ m ∈ Q ∧ P.idxOf n = Q.idxOf m ∧ g1.dtype n = g2.dtype m

theorem idxOf_inj_mem {l : List Nat} {a b : Nat} (ha : a ∈ l) (hb : b ∈ l) (h : l.idxOf a = l.idxOf b) : a = b := by
  rw [← List.getElem_idxOf (List.idxOf_lt_length_of_mem ha), ← List.getElem_idxOf (List.idxOf_lt_length_of_mem hb)]
  simp only [h]

theorem bufRel_biUnique (g1 g2 : Graph V) (P Q : List Nat) : BiUnique (BufRel g1 g2 P Q) where
  right := fun ⟨_, a2, a3, _⟩ ⟨_, b2, b3, _⟩ => idxOf_inj_mem a2 b2 (a3.symm.trans b3)
  left := fun ⟨a1, _, a3, _⟩ ⟨b1, _, b3, _⟩ => idxOf_inj_mem a1 b1 (a3.trans b3.symm)

theorem SameK.bufs {g1 g2 : Graph V} {P Q : List Nat} : ∀ {e1 e2 : DExpr}, SameK g1 g2 P Q e1 e2 → List.Forall₂ (BufRel g1 g2 P Q) (bufRefs e1) (bufRefs e2)
  | .const c, e2, h => by cases e2 <;> simp only [SameK] at h; exact .nil
  | .un op e, e2, h => by
    cases e2 <;> simp only [SameK] at h
    have := SameK.bufs h.2
    simpa only [funcRefs, bufRefs, reducedVars] using this
  | .bin op l r, e2, h => by
    cases e2 <;> simp only [SameK] at h
    exact List.rel_append (SameK.bufs h.2.1) (SameK.bufs h.2.2)
  | .red op e rs, e2, h => by
    cases e2 <;> simp only [SameK] at h
    have := SameK.bufs h.2.2
    simpa only [funcRefs, bufRefs, reducedVars] using this
  | .func f idx, e2, h => by cases e2 <;> simp only [SameK] at h; exact .nil
  | .buf b idx, e2, h => by
    cases e2 <;> simp only [SameK] at h
    exact .cons ⟨h.2.1, h.2.2.1, h.2.2.2.1, h.2.2.2.2.1⟩ .nil
  | .tern .., e2, h => by cases e2 <;> simp only [SameK] at h

theorem SameK.reduced {g1 g2 : Graph V} {P Q : List Nat} : ∀ {e1 e2 : DExpr}, SameK g1 g2 P Q e1 e2 → (reducedVars e1).map nameExt = (reducedVars e2).map nameExt
  | .const c, e2, h => by cases e2 <;> simp only [SameK] at h; rfl
  | .un op e, e2, h => by
    cases e2 <;> simp only [SameK] at h
    have := SameK.reduced h.2
    simpa only [funcRefs, bufRefs, reducedVars] using this
  | .bin op l r, e2, h => by
    cases e2 <;> simp only [SameK] at h
    simp only [reducedVars, List.map_append, SameK.reduced h.2.1, SameK.reduced h.2.2]
  | .red op e rs, e2, h => by
    cases e2 <;> simp only [SameK] at h
    exact h.2.1
  | .func f idx, e2, h => by cases e2 <;> simp only [SameK] at h; rfl
  | .buf b idx, e2, h => by cases e2 <;> simp only [SameK] at h; rfl
  | .tern .., e2, h => by cases e2 <;> simp only [SameK] at h

/-- Two functions that play the same role. -/
def FncRel (t1 t2 : Tbl) (D1 D2 : List Nat) (f f' : Nat) : Prop :=
  f ∈ D1 ∧ f' ∈ D2 ∧ D1.idxOf f = D2.idxOf f' ∧ (t1 f).map (fun F => (F.outShape, F.outDtype)) = (t2 f').map (fun F => (F.outShape, F.outDtype))

theorem fncRel_biUnique (t1 t2 : Tbl) (P Q : List Nat) : BiUnique (FncRel t1 t2 P Q) where
  right := fun ⟨_, a2, a3, _⟩ ⟨_, b2, b3, _⟩ => idxOf_inj_mem a2 b2 (a3.symm.trans b3)
  left := fun ⟨a1, _, a3, _⟩ ⟨b1, _, b3, _⟩ => idxOf_inj_mem a1 b1 (a3.trans b3.symm)

theorem sameE_of_sameK {g1 g2 : Graph V} {t1 t2 : Tbl} {P Q D1 D2 : List Nat} {a1 a2 : Args}
    (hb : List.Forall₂ (BufRel g1 g2 P Q) a1.bufs a2.bufs) (hf : List.Forall₂ (FncRel t1 t2 D1 D2) a1.fncs a2.fncs) :
    ∀ {e1 e2 : DExpr}, SameK g1 g2 P Q e1 e2 → List.Forall₂ (FncRel t1 t2 D1 D2) (funcRefs e1) (funcRefs e2) → SameE g1 g2 t1 t2 a1 a2 e1 e2
  | .const c, e2, h, _ => by cases e2 <;> simp only [SameK] at h; exact h
  | .un op e, e2, h, hr => by
    cases e2 <;> simp only [SameK] at h
    exact ⟨h.1, sameE_of_sameK hb hf h.2 hr⟩
  | .bin op l r, e2, h, hr => by
    cases e2 <;> simp only [SameK] at h
    obtain ⟨k1, k2⟩ := forall₂_split (SameK.lens h.2.1) hr
    exact ⟨h.1, sameE_of_sameK hb hf h.2.1 k1, sameE_of_sameK hb hf h.2.2 k2⟩
  | .red op e rs, e2, h, hr => by
    cases e2 <;> simp only [SameK] at h
    exact ⟨h.1, h.2.1, sameE_of_sameK hb hf h.2.2 hr⟩
  | .func f idx, e2, h, hr => by
    cases e2 <;> simp only [SameK] at h
    rename_i f' idx'
    simp only [funcRefs, List.forall₂_cons] at hr
    obtain ⟨hm, hi⟩ := (fncRel_biUnique t1 t2 D1 D2).mem_iff hf hr.1
    refine ⟨h, ?_, ?_⟩
    · simp only [fncName, hi, hb.length_eq]
      by_cases hx : f ∈ a1.fncs
      · rw [if_pos hx, if_pos (hm.1 hx)]
      · rw [if_neg hx, if_neg (fun h => hx (hm.2 h))]
    · have := hr.1.2.2.2
      cases h1 : t1 f <;> cases h2 : t2 f' <;> simp only [h1, h2, Option.map_none, Option.map_some, reduceCtorEq, Option.some.injEq, Prod.mk.injEq] at this ⊢
      exact this.1
  | .buf b idx, e2, h, _ => by
    cases e2 <;> simp only [SameK] at h
    rename_i b' idx'
    obtain ⟨hm, hi⟩ := (bufRel_biUnique g1 g2 P Q).mem_iff hb ⟨h.2.1, h.2.2.1, h.2.2.2.1, h.2.2.2.2.1⟩
    refine ⟨h.1, ?_, h.2.2.2.2.2⟩
    simp only [bufName, hi]
    by_cases hx : b ∈ a1.bufs
    · rw [if_pos hx, if_pos (hm.1 hx)]
    · rw [if_neg hx, if_neg (fun h => hx (hm.2 h))]
  | .tern .., e2, h, _ => by cases e2 <;> simp only [SameK] at h

theorem forall₂_zipIdx_map {R : Nat → Nat → Prop} {α : Type} {F G : Nat × Nat → α} (h : ∀ a b i, R a b → F (a, i) = G (b, i)) :
    ∀ {l1 l2 : List Nat} {k : Nat}, List.Forall₂ R l1 l2 → (l1.zipIdx k).map F = (l2.zipIdx k).map G
  | _, _, k, .nil => rfl
  | _, _, k, .cons hx hl => by
    simp only [List.zipIdx_cons, List.map_cons, h _ _ _ hx, forall₂_zipIdx_map h hl]

/-- Kernels with the same key: same loops, same schedule, same expression. -/
theorem freshCode_of_key {g1 g2 : Graph V} {t1 t2 : Tbl} {fu1 fu2 : Nat} {F1 F2 : Func} {s1 s2 : Schedule} {k : Key} {isGpu : Bool}
    (h1 : cacheKey g1 t1 fu1 F1 s1 = .ok k) (h2 : cacheKey g2 t2 fu2 F2 s2 = .ok k)
    (q1 : Sched.schedule isGpu F1 = .ok s1) (q2 : Sched.schedule isGpu F2 = .ok s2)
    (hh : k.expr.handled = true) (hsig : funcSig t1 F1.expr = funcSig t2 F2.expr) : s1 = s2 ∧ freshCode g1 t1 F1 s1 = freshCode g2 t2 F2 s2 := by
  simp only [cacheKey] at h1 h2
  obtain ⟨⟨e1, i1⟩, x1, h1⟩ := except_bind_ok h1
  obtain ⟨⟨e2, i2⟩, x2, h2⟩ := except_bind_ok h2
  cases h1
  simp only [Except.ok.injEq, pure, Except.pure, Key.mk.injEq] at h2
  obtain ⟨hl, hsh, hdt, rfl, -⟩ := h2
  cases fu1 with
  | zero => cases x1
  | succ fu1 =>
  cases fu2 with
  | zero => cases x2
  | succ fu2 =>
  unfold ekey at x1 x2
  have hK : SameK g1 g2 i1 i2 F1.expr F2.expr := by
    refine sameK_of_key ?_ ?_ F1.expr F2.expr [] [] _ i1 i2 hh rfl x1 x2
    · intro f ids k ids' hv
      split at hv
      · exact ekey_ext _ _ _ _ _ hv
      · cases hv
    · intro f ids k ids' hv
      split at hv
      · exact ekey_ext _ _ _ _ _ hv
      · cases hv
  have hf : List.Forall₂ (FncRel t1 t2 (dedup (funcRefs F1.expr)) (dedup (funcRefs F2.expr))) (funcRefs F1.expr) (funcRefs F2.expr) := by
    simp only [funcSig] at hsig
    rw [← List.forall₂_eq_eq_eq, List.forall₂_map_left_iff, List.forall₂_map_right_iff] at hsig
    rw [List.forall₂_iff_get] at hsig ⊢
    refine ⟨hsig.1, fun i a b => ?_⟩
    have := hsig.2 i a b
    simp only [Prod.mk.injEq] at this
    exact ⟨mem_dedup.2 (List.get_mem _ _), mem_dedup.2 (List.get_mem _ _), this.1, this.2⟩
  have hb' := (bufRel_biUnique _ _ _ _).dedup hK.bufs
  have hf' := (fncRel_biUnique _ _ _ _).dedup hf
  have hE := sameE_of_sameK (a1 := ⟨(args F1.expr).1, (args F1.expr).2⟩) (a2 := ⟨(args F2.expr).1, (args F2.expr).2⟩) hb' hf' hK hf
  have hini : Sched.init F1 = Sched.init F2 := by
    have a1 : F1.outLoops.map (fun l => (⟨⟨l.name, l.extent⟩, .spatial, .sequential⟩ : LoopSched)) = F2.outLoops.map (fun l => ⟨⟨l.name, l.extent⟩, .spatial, .sequential⟩) := by
      have := congrArg (List.map fun p : VName × Int => (⟨⟨p.1, p.2⟩, .spatial, .sequential⟩ : LoopSched)) hl
      rw [List.map_map, List.map_map] at this
      exact this.symm
    have a2 : (reducedVars F1.expr).map (fun l => (⟨⟨l.name, l.extent⟩, .reduce, .sequential⟩ : LoopSched)) = (reducedVars F2.expr).map (fun l => ⟨⟨l.name, l.extent⟩, .reduce, .sequential⟩) := by
      have := congrArg (List.map fun p : VName × Int => (⟨⟨p.1, p.2⟩, .reduce, .sequential⟩ : LoopSched)) hK.reduced
      rw [List.map_map, List.map_map] at this
      exact this
    simp only [Sched.init, a1, a2]
  have hs : s1 = s2 := by
    simp only [Sched.schedule, hini] at q1 q2
    rw [q1] at q2
    cases q2; rfl
  subst hs
  have hnames : F1.outLoops.map (fun l => KI.var l.name) = F2.outLoops.map (fun l => KI.var l.name) := by
    have := congrArg (List.map fun p : VName × Int => KI.var p.1) hl
    rw [List.map_map, List.map_map] at this
    exact this.symm
  have hpar : params g1 t1 ⟨(args F1.expr).1, (args F1.expr).2⟩ F1.outDtype = params g2 t2 ⟨(args F2.expr).1, (args F2.expr).2⟩ F2.outDtype := by
    simp only [params, hdt, args, hb'.length_eq]
    congr 2
    · exact forall₂_zipIdx_map (fun a b i h => by simp only [h.2.2.2]) hb'
    · refine forall₂_zipIdx_map (fun a b i h => ?_) hf'
      have := h.2.2.2
      cases h1 : t1 a <;> cases h2 : t2 b <;> simp only [h1, h2, Option.map_none, Option.map_some, reduceCtorEq, Option.some.injEq, Prod.mk.injEq] at this ⊢
      simp only [Option.getD_some, this.2, and_self]
  refine ⟨rfl, ?_⟩
  simp only [freshCode, codegen, hpar, hnames, hdt, hsh, genD_same _ _ _ _ hE]

end Whale
