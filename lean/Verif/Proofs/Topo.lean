import Verif.Proofs.Fuse
/-
Ordering of the kernels, and correctness of `convert`.
-/
namespace Whale
open Algo
variable {V : Type}

theorem dedup_aux (l acc : List Nat) :
    (∀ x, x ∈ l.foldl (fun acc x => if x ∈ acc then acc else acc ++ [x]) acc ↔ x ∈ acc ∨ x ∈ l) ∧
    (acc.Nodup → (l.foldl (fun acc x => if x ∈ acc then acc else acc ++ [x]) acc).Nodup) := by
  induction l generalizing acc with
  | nil => simp
  | cons a l ih =>
    rw [List.foldl_cons]
    obtain ⟨h1, h2⟩ := ih (if a ∈ acc then acc else acc ++ [a])
    refine ⟨fun x => ?_, fun hn => h2 ?_⟩
    · rw [h1]
      split
      · rename_i ha
        simp only [List.mem_cons]
        constructor
        · rintro (h | h)
          · exact Or.inl h
          · exact Or.inr (Or.inr h)
        · rintro (h | rfl | h)
          · exact Or.inl h
          · exact Or.inl ha
          · exact Or.inr h
      · simp only [List.mem_append, List.mem_cons, List.not_mem_nil, or_false, or_assoc]
    · split
      · exact hn
      · rename_i ha
        rw [List.nodup_append]
        exact ⟨hn, by simp, by simp only [List.mem_singleton]; intro x hx y hy e; subst hy; subst e; exact ha hx⟩

theorem mem_dedup {l : List Nat} {x : Nat} : x ∈ dedup l ↔ x ∈ l := by
  have := (dedup_aux l []).1 x; simpa [dedup] using this

theorem nodup_dedup (l : List Nat) : (dedup l).Nodup := (dedup_aux l []).2 (by simp)

/-- Every function of the list only refers to functions before it. -/
def Ordered (t : Tbl) (funcs : List Nat) : Prop :=
  ∀ pre f post, funcs = pre ++ f :: post → ∀ F, t f = some F → ∀ d ∈ funcRefs F.expr, d ∈ pre

theorem Ordered.append {t : Tbl} {l : List Nat} {f : Nat} (h : Ordered t l) (hf : ∀ F, t f = some F → ∀ d ∈ funcRefs F.expr, d ∈ l) :
    Ordered t (l ++ [f]) := by
  intro pre x post he F hF d hd
  rcases List.eq_nil_or_concat post with rfl | ⟨post', y, rfl⟩
  · obtain ⟨rfl, he⟩ := List.append_inj' he rfl
    have he' : f = x := by simpa using he
    subst he'
    exact hf F hF d hd
  · have he' : l ++ [f] = (pre ++ x :: post') ++ [y] := by rw [he]; simp
    obtain ⟨h1, _⟩ := List.append_inj' he' rfl
    exact h pre x post' h1 F hF d hd

structure TopoInv (t : Tbl) (seen funcs : List Nat) : Prop where
  sub : ∀ x ∈ funcs, x ∈ seen
  nodup : funcs.Nodup
  ord : Ordered t funcs

/-- References of table entries go to smaller entries. -/
def TblDag (t : Tbl) : Prop := ∀ i F, t i = some F → ∀ f ∈ funcRefs F.expr, f < i ∧ (t f).isSome

/-- `d` is referenced (transitively) by `f` in table `t`. -/
inductive TReach (t : Tbl) (f : Nat) : Nat → Prop
  | refl : TReach t f f
  | step {i x : Nat} {F : Func} : TReach t f i → t i = some F → x ∈ funcRefs F.expr → TReach t f x

theorem TReach.trans {t : Tbl} {a b c : Nat} (h : TReach t a b) (k : TReach t b c) : TReach t a c := by
  induction k with
  | refl => exact h
  | step _ hF hx ih => exact .step ih hF hx

structure TopoRes (t : Tbl) (f : Nat) (seen funcs seen' funcs' : List Nat) : Prop where
  inv : TopoInv t seen' funcs'
  seenSub : ∀ x ∈ seen, x ∈ seen'
  pre : ∃ l, funcs' = funcs ++ l ∧ ∀ x ∈ l, x ≤ f ∧ (t x).isSome ∧ TReach t f x
  prog : ∀ x ∈ seen', x ∉ funcs' → x ∈ seen ∧ x ∉ funcs

theorem topo_ok {t : Tbl} (ht : TblDag t) (fuel : Nat) : ∀ f seen funcs, f < fuel → (t f).isSome → TopoInv t seen funcs →
    (∀ x ∈ seen, x ∉ funcs → f < x) →
    ∃ seen' funcs', topo t fuel f (seen, funcs) = .ok (seen', funcs') ∧ TopoRes t f seen funcs seen' funcs' ∧ f ∈ funcs' ∧
      (f ∉ seen → ∃ l, funcs' = l ++ [f]) := by
  induction fuel with
  | zero => intro f _ _ h; omega
  | succ fuel ih =>
    intro f seen funcs hf hs hinv hprog
    unfold topo
    by_cases hfs : f ∈ seen
    · rw [if_pos hfs]
      refine ⟨seen, funcs, rfl, ⟨hinv, fun _ h => h, ⟨[], by simp⟩, fun x h1 h2 => ⟨h1, h2⟩⟩, ?_, fun h => absurd hfs h⟩
      by_cases hff : f ∈ funcs
      · exact hff
      · have := hprog f hfs hff; omega
    · rw [if_neg hfs]
      obtain ⟨F, hF⟩ := Option.isSome_iff_exists.1 hs
      rw [hF]
      have hfold : ∀ (ds : List Nat) (sn fs : List Nat), (∀ d ∈ ds, d < f ∧ (t d).isSome ∧ TReach t f d) → TopoInv t sn fs → (∀ x ∈ sn, x ∉ fs → f ≤ x) →
          ∃ sn' fs', ds.foldlM (fun st d => topo t fuel d st) (sn, fs) = .ok (sn', fs') ∧ TopoRes t f sn fs sn' fs' ∧
            (∃ l, fs' = fs ++ l ∧ ∀ x ∈ l, x < f) ∧ ∀ d ∈ ds, d ∈ fs' := by
        intro ds
        induction ds with
        | nil => intro sn fs _ hi _; exact ⟨sn, fs, rfl, ⟨hi, fun _ h => h, ⟨[], by simp⟩, fun x h1 h2 => ⟨h1, h2⟩⟩, ⟨[], by simp⟩, by simp⟩
        | cons d ds ihd =>
          intro sn fs hds hi hpr
          obtain ⟨h1, h2, h3⟩ := hds d (by simp)
          obtain ⟨sn1, fs1, e1, r1, m1, _⟩ := ih d sn fs (by omega) h2 hi (fun x hx hx' => by have := hpr x hx hx'; omega)
          obtain ⟨l1, hl1, hb1⟩ := r1.pre
          obtain ⟨sn2, fs2, e2, r2, ⟨l2, hl2, hb2⟩, m2⟩ := ihd sn1 fs1 (fun x hx => hds x (by simp [hx])) r1.inv (fun x hx hx' => by
            have := r1.prog x hx hx'; exact hpr x this.1 this.2)
          obtain ⟨l2', hl2', hb2'⟩ := r2.pre
          refine ⟨sn2, fs2, by rw [List.foldlM_cons, e1]; exact e2, ⟨r2.inv, fun x hx => r2.seenSub x (r1.seenSub x hx), ?_, ?_⟩, ⟨l1 ++ l2, by rw [hl2, hl1, List.append_assoc], ?_⟩, ?_⟩
          · refine ⟨l1 ++ l2', by rw [hl2', hl1, List.append_assoc], ?_⟩
            intro x hx
            rcases List.mem_append.1 hx with hx | hx
            · have := hb1 x hx; exact ⟨by omega, this.2.1, h3.trans this.2.2⟩
            · exact hb2' x hx
          · intro x hx hx'
            have := r2.prog x hx hx'
            exact r1.prog x this.1 this.2
          · intro x hx
            rcases List.mem_append.1 hx with hx | hx
            · have := hb1 x hx; omega
            · exact hb2 x hx
          · intro x hx
            rcases List.mem_cons.1 hx with rfl | hx
            · rw [hl2]; exact List.mem_append_left _ m1
            · exact m2 x hx
      obtain ⟨sn1, fs1, e1, r1, ⟨l1, hl1, hb1⟩, m1⟩ := hfold (dependentFuncs F.expr) (seen ++ [f]) funcs
        (fun d hd => by
          have hd' := mem_dedup.1 hd
          have := ht f F hF d hd'; exact ⟨this.1, this.2, .step .refl hF hd'⟩)
        ⟨fun x hx => List.mem_append_left _ (hinv.sub x hx), hinv.nodup, hinv.ord⟩
        (fun x hx hx' => by
          rcases List.mem_append.1 hx with h | h
          · have := hprog x h hx'; omega
          · simp only [List.mem_singleton] at h; omega)
      have hfn : f ∉ fs1 := by
        rw [hl1]
        intro h
        rcases List.mem_append.1 h with h | h
        · exact hfs (hinv.sub f h)
        · have := hb1 f h; omega
      obtain ⟨l1', hl1', hb1'⟩ := r1.pre
      refine ⟨sn1, fs1 ++ [f], by simp only [bind, Except.bind, e1]; rfl, ⟨⟨?_, ?_, ?_⟩, fun x hx => r1.seenSub x (List.mem_append_left _ hx), ?_, ?_⟩, by simp, fun _ => ⟨fs1, rfl⟩⟩
      · intro x hx
        rcases List.mem_append.1 hx with h | h
        · exact r1.inv.sub x h
        · simp only [List.mem_singleton] at h; subst h; exact r1.seenSub x (by simp)
      · rw [List.nodup_append]
        refine ⟨r1.inv.nodup, by simp, ?_⟩
        simp only [List.mem_singleton]
        intro x hx y hy e
        subst hy; subst e; exact hfn hx
      · apply r1.inv.ord.append
        intro F' hF' d hd
        rw [hF, Option.some.injEq] at hF'; subst hF'
        exact m1 d (mem_dedup.2 hd)
      · refine ⟨l1' ++ [f], by rw [hl1', List.append_assoc], ?_⟩
        intro x hx
        rcases List.mem_append.1 hx with h | h
        · exact hb1' x h
        · simp only [List.mem_singleton] at h; subst h; exact ⟨Nat.le_refl _, hs, .refl⟩
      · intro x hx hx'
        simp only [List.mem_append, List.mem_singleton, not_or] at hx'
        have := r1.prog x hx hx'.1
        rcases List.mem_append.1 this.1 with h | h
        · exact ⟨h, this.2⟩
        · simp only [List.mem_singleton] at h; exact absurd h hx'.2

theorem Small.reach [Lim] {g : Graph V} {a i : Nat} (h : Small g a) (hr : Reach g a i) : Small g i := fun m hm j hj => h m hm j (hr.trans hj)

/-- Correctness of `convert` for an array that is not a view. -/
theorem convert_ok [Lim] {g : Graph V} (h : WF g) {a : Nat} (ha : a < g.length) (hns : NoScalarReshape g a) (hv : (g.ctx a).op.isView = false) (hS : Small g a := by exact small_none) :
    ∃ funcs t, convert g a = .ok (funcs, t) ∧ funcs.Nodup ∧ (∃ pre, funcs = pre ++ [a]) ∧ Ordered t funcs ∧
      (∀ f ∈ funcs, Reach g a f ∧ ∃ F, t f = some F ∧ EntryOK g f F ∧ (∀ d ∈ funcRefs F.expr, (t d).isSome)) := by
  obtain ⟨t1, e1, f1, _, s1, r1⟩ := arrToFunc_ok h (a + 2) a Tbl.empty (by omega) ha hns (Fresh.empty g)
  have ht1 := f1.tblOK h (fun i hi => hS.reach ((r1 i hi).resolve_left (by simp [Tbl.empty])))
  obtain ⟨F, hF⟩ := Option.isSome_iff_exists.1 s1
  have hE := ht1.entry a F hF
  obtain ⟨rc, e2, c2, p2⟩ := countRefs_ok ht1 (a + 2) F.expr a (fun _ => 0) (by omega)
    (fun f hf => ⟨hE.wf.refs_lt f hf, ht1.refs a F hF f hf⟩)
  have hrc : RcOK t1 rc := fun i hi => c2.new i rfl hi
  obtain ⟨e', t2, e3, f3⟩ := tryFuse_ok (rc := rc) (fuel := a + 1) (i := a) (by omega) hE.wf p2 ht1 hrc
  have hbase : base g a = a := base_nonview hv
  generalize hroot : ({ outLoops := F.outLoops, outShape := F.outShape, outDtype := F.outDtype, expr := e', outBuffer := base g a } : Func) = root
  have hEroot : EntryOK g a root := by
    subst hroot
    exact ⟨ha, hE.loops, hE.shape, hE.dtype, hbase, f3.wf, fun A idx hv => f3.sem A _ _ (hE.sem A idx hv)⟩
  have hrexpr : root.expr = e' := by subst hroot; rfl
  have hsome : ∀ x, rc x ≠ 0 → ((t2.set a root) x).isSome := by
    intro x hx
    by_cases hxa : x = a
    · subst hxa; simp [Tbl.set_same]
    · rw [Tbl.set_ne _ _ hxa]; obtain ⟨Fx, hFx, _⟩ := f3.rcOK x hx; rw [hFx]; rfl
  have htbl : TblOK g (t2.set a root) := by
    refine ⟨fun i G hi => ?_, fun i G hi x hx => ?_⟩
    · by_cases hia : i = a
      · subst hia; rw [Tbl.set_same, Option.some.injEq] at hi; subst hi; exact hEroot
      · rw [Tbl.set_ne _ _ hia] at hi; exact f3.tbl.entry i G hi
    · by_cases hia : i = a
      · subst hia; rw [Tbl.set_same, Option.some.injEq] at hi; subst hi
        exact hsome x (f3.refs x (by rw [← hrexpr]; exact hx))
      · rw [Tbl.set_ne _ _ hia] at hi
        by_cases hxa : x = a
        · subst hxa; simp [Tbl.set_same]
        · rw [Tbl.set_ne _ _ hxa]; exact f3.tbl.refs i G hi x hx
  have hdag : TblDag (t2.set a root) := fun i G hi f hf => ⟨(htbl.entry i G hi).wf.refs_lt f hf, htbl.refs i G hi f hf⟩
  obtain ⟨sn, fs, e4, r4, m4, l4⟩ := topo_ok hdag (a + 2) a [] [] (by omega) (by simp [Tbl.set_same]) ⟨by simp, by simp, by intro p f q he; simp at he⟩ (by simp)
  refine ⟨fs, t2.set a root, ?_, r4.inv.nodup, l4 (by simp), r4.inv.ord, ?_⟩
  · unfold convert
    simp only [e1, bind, Except.bind, hF, e2]
    have e3' : tryFuse rc (a + 2) F.expr t1 = .ok (e', t2) := e3
    simp only [e3', hroot, e4]
    rfl
  · intro f hf
    obtain ⟨l, hl, hb⟩ := r4.pre
    simp only [List.nil_append] at hl
    have hx := hb f (hl ▸ hf)
    obtain ⟨G, hG⟩ := Option.isSome_iff_exists.1 hx.2.1
    refine ⟨?_, G, hG, htbl.entry f G hG, htbl.refs f G hG⟩
    by_cases hfa : f = a
    · subst hfa; exact .refl
    · rw [Tbl.set_ne _ _ hfa] at hG
      have := (f3.dom f).1 (by rw [hG]; rfl)
      rcases r1 f this with h | h
      · simp [Tbl.empty] at h
      · exact h

end Whale
