import Verif.Proofs.ExprSem
/-
The loop expression `arr_to_func` builds for one array computes the meaning of that array from the meanings of its inputs.
-/
namespace Whale
open Algo
variable {V : Type} [Lim]

/-! ### argsort of a permutation -/

theorem argsort_perm {axes : List Nat} {n : Nat} (h : axes.Perm (List.range n)) :
    argsort axes = (List.range n).map (axes.idxOf ·) := by
  have hlen := perm_range_length h
  have hnd := perm_range_nodup h
  -- mapping `axes` over its argsort gives `range n`
  have hp : (argsort axes).Perm (List.range axes.length) := List.pySort_perm _ _
  have key : (argsort axes).map (fun i => axes.getD i 0) = List.range n := by
    have p1 : ((argsort axes).map (fun i => axes.getD i 0)).Perm (List.range n) := by
      refine (hp.map _).trans (List.Perm.trans (List.Perm.of_eq ?_) h)
      apply List.ext_getElem (by simp)
      intro k h1 h2
      simp [List.getD_eq_getElem?_getD, List.getElem?_eq_getElem h2]
    apply List.Perm.eq_of_pairwise (le := (· ≤ ·)) (fun a b _ _ h1 h2 => Nat.le_antisymm h1 h2) ?_ ?_ p1
    · rw [List.pairwise_map]
      have := List.pairwise_pySort (le := fun i j => decide (axes.getD i 0 ≤ axes.getD j 0))
        (fun a b c h1 h2 => by simp only [decide_eq_true_eq] at *; omega) (fun a b => by simp; omega) (List.range axes.length)
      exact this.imp (fun h => by simpa using h)
    · exact (List.pairwise_lt_range).imp (fun h => Nat.le_of_lt h)
  have hl2 : (argsort axes).length = n := by rw [hp.length_eq]; simp [hlen]
  apply List.ext_getElem (by simp [hl2])
  intro k h1 h2
  have hk : k < n := by omega
  have e := congrArg (fun l => l[k]?) key
  simp only [List.getElem?_map, List.getElem?_eq_getElem h1, Option.map_some] at e
  rw [List.getElem?_eq_getElem (by simpa using hk)] at e
  simp only [List.getElem_range, Option.some.injEq] at e
  have hlt : (argsort axes)[k] < axes.length := by
    have := hp.mem_iff.1 (List.getElem_mem h1); simpa using this
  rw [List.getD_eq_getElem?_getD, List.getElem?_eq_getElem hlt] at e
  simp only [Option.getD_some] at e
  simp only [List.getElem_map, List.getElem_range]
  conv => rhs; rw [← e]
  exact (hnd.idxOf_getElem _ hlt).symm

theorem pyGet_nat {α : Type} {l : List α} {k : Nat} (h : k < l.length) : pyGet l (k : Int) = .ok l[k] := by
  unfold pyGet
  rw [pyPos_nonneg (by omega) (by omega)]
  simp [List.getElem?_eq_getElem h, pure, Except.pure]

theorem evalI_bin {ρ : LEnv} {op : Ops} {l r : IExpr} {a b : Int} (hl : evalI ρ l = some a) (hr : evalI ρ r = some b) :
    evalI ρ (.bin op l r) = iop op a b := by simp [evalI, hl, hr]

/-! ### one case per operation: the index expressions -/

theorem transposeIdx_ok {g : Graph V} {a : Nat} {axes : List Nat} (h : axes.Perm (List.range (g.ndim a))) :
    transposeIdx (outLoops g a) axes = .ok ((List.range axes.length).map fun k =>
      IExpr.index ((outLoops g a).getD (axes.idxOf k) default)) := by
  have hlen := perm_range_length h
  unfold transposeIdx
  rw [argsort_perm h]
  apply mapM_ok
  intro k hk
  simp only [List.mem_range] at hk
  rw [pyGet_nat (by simp; omega)]
  simp only [List.getElem_map, List.getElem_range]
  have hi := List.idxOf_lt_length_of_mem (perm_range_mem h (by omega : k < g.ndim a))
  have hi' : axes.idxOf k < (outLoops g a).length := by rw [outLoops_length]; omega
  show (do let l ← pyGet (outLoops g a) ((axes.idxOf k : Nat) : Int); pure (IExpr.index l)) = _
  rw [pyGet_nat hi', List.getD_eq_getElem?_getD, List.getElem?_eq_getElem hi']
  rfl

theorem getD_outLoops_mem {g : Graph V} {a k : Nat} (h : k < g.ndim a) : (outLoops g a).getD k default ∈ outLoops g a := by
  have h' : k < (outLoops g a).length := by rw [outLoops_length]; exact h
  rw [List.getD_eq_getElem?_getD, List.getElem?_eq_getElem h']
  exact List.getElem_mem _

theorem outEnv_getD {g : Graph V} {a : Nat} {idx : List Int} (h : idx.length = g.ndim a) {k : Nat} (hk : k < g.ndim a) :
    outEnv g a idx ((outLoops g a).getD k default) = some (geti idx k) := by
  have h' : k < (outLoops g a).length := by rw [outLoops_length]; exact hk
  rw [List.getD_eq_getElem?_getD, List.getElem?_eq_getElem h']
  exact outEnv_getElem h h'

theorem evalIs_transpose {g : Graph V} {a : Nat} {axes : List Nat} (h : axes.Perm (List.range (g.ndim a))) {idx : List Int}
    (hl : idx.length = g.ndim a) :
    evalIs (outEnv g a idx) ((List.range axes.length).map fun k => IExpr.index ((outLoops g a).getD (axes.idxOf k) default)) =
      some (permIdx axes idx) := by
  have hlen := perm_range_length h
  apply evalIs_eq (by simp [permIdx])
  intro k hk
  simp only [List.length_map, List.length_range] at hk
  have hi := List.idxOf_lt_length_of_mem (perm_range_mem h (by omega : k < g.ndim a))
  simp only [List.getElem_map, List.getElem_range, evalI]
  rw [outEnv_getD hl (by omega), permIdx, geti_map_range _ _ _ hk]

/-! broadcast -/

theorem broadcastIdx_ok {g : Graph V} {a : Nat} {s : List Int} (hs : s.length ≤ g.ndim a) :
    broadcastIdx (outLoops g a) s (g.shape a) = .ok ((List.range s.length).map fun k =>
      if geti s k = 1 then IExpr.const 0 else .index ((outLoops g a).getD (g.ndim a - s.length + k) default)) := by
  unfold broadcastIdx
  have e : ((irange ((g.shape a).length - ((g.shape a).length - (s.length : Int)))).map (· + ((g.shape a).length - (s.length : Int))))
      = (List.range s.length).map fun k => ((g.ndim a - s.length + k : Nat) : Int) := by
    unfold irange Graph.ndim
    have : ((g.shape a).length - ((g.shape a).length - (s.length : Int))).toNat = s.length := by omega
    rw [this, List.map_map]
    apply List.map_congr_left
    intro k _
    simp only [Function.comp, Graph.ndim, Int.ofNat_eq_natCast] at *
    omega
  simp only [e]
  have hrep : ((g.shape a).length - (s.length : Int)).toNat = g.ndim a - s.length := by unfold Graph.ndim at *; omega
  rw [hrep, List.mapM_map]
  apply mapM_ok
  intro k hk
  simp only [List.mem_range] at hk
  simp only [Function.comp]
  rw [pyGet_nat (by simp; omega)]
  rw [List.getElem_append_right (by simp)]
  simp only [List.length_replicate, Nat.add_sub_cancel_left]
  have : s[k] = geti s k := (geti_eq_getElem hk).symm
  show (if s[k] = 1 then _ else _) = _
  rw [this]
  split
  · rfl
  · have hi : g.ndim a - s.length + k < (outLoops g a).length := by rw [outLoops_length]; omega
    rw [pyGet_nat hi, List.getD_eq_getElem?_getD, List.getElem?_eq_getElem hi]
    rfl

theorem geti_drop (l : List Int) (n k : Nat) : geti (l.drop n) k = geti l (n + k) := by
  simp [geti, List.getD_eq_getElem?_getD]

theorem geti_zipWith {f : Int → Int → Int} {l m : List Int} {k : Nat} (h1 : k < l.length) (h2 : k < m.length) :
    geti (List.zipWith f l m) k = f (geti l k) (geti m k) := by
  rw [geti_eq_getElem (by simp; omega), List.getElem_zipWith, geti_eq_getElem h1, geti_eq_getElem h2]

theorem evalIs_broadcast {g : Graph V} {a : Nat} {s : List Int} (hs : s.length ≤ g.ndim a) {idx : List Int} (hl : idx.length = g.ndim a) :
    evalIs (outEnv g a idx) ((List.range s.length).map fun k =>
      if geti s k = 1 then IExpr.const 0 else .index ((outLoops g a).getD (g.ndim a - s.length + k) default)) =
    some (bcastIdx s (idx.drop (g.ndim a - s.length))) := by
  apply evalIs_eq (by simp [bcastIdx]; omega)
  intro k hk
  simp only [List.length_map, List.length_range] at hk
  simp only [List.getElem_map, List.getElem_range]
  rw [bcastIdx, geti_zipWith hk (by simp; omega), geti_drop]
  split
  · rfl
  · simp only [evalI]; exact outEnv_getD hl (by omega)

/-! slicing -/

theorem sliceIdxE_ok {S : List LoopIndex} {ls : List LoopIndex} {subs : List Sub} (hsub : ∀ l ∈ ls, l ∈ S)
    (hl : ls.length = (Tensor.sliceShape subs).length) :
    ∃ es, sliceIdxE ls subs = .ok es ∧ es.length = subs.length ∧ (∀ i ∈ es, IWF S i) ∧
      ∀ s ρ idx, SubsOK s subs → ValidIdx (Tensor.sliceShape subs) idx → Fit (room s) → evalIs ρ (ls.map .index) = some idx →
        evalIs ρ es = some (Tensor.sliceIdx subs idx) := by
  induction subs generalizing ls with
  | nil => exact ⟨[], rfl, rfl, by simp, fun s ρ idx _ _ _ _ => rfl⟩
  | cons b r ih => cases b with
    | int i =>
      obtain ⟨es, h1, h2, h3, h4⟩ := ih hsub hl
      refine ⟨.const i :: es, by simp [sliceIdxE, h1]; rfl, by simp [h2], ?_, fun s ρ idx hs hval hfit hi => ?_⟩
      · intro e he; rcases List.mem_cons.1 he with rfl | he
        · trivial
        · exact h3 e he
      · cases s with
        | nil => exact hs.elim
        | cons d s =>
          have := h4 s ρ idx hs.2 hval (hfit.of_le (by have := room_ge_one s; omega) (room_cons d s).2.2) hi
          simp [evalIs, evalI, this, Tensor.sliceIdx]
    | slice st sp c =>
      cases ls with
      | nil => simp [Tensor.sliceShape] at hl
      | cons l ls =>
        obtain ⟨es, h1, h2, h3, h4⟩ := ih (ls := ls) (fun x hx => hsub x (List.mem_cons_of_mem _ hx)) (by simpa [Tensor.sliceShape] using hl)
        simp only [sliceIdxE, h1]
        refine ⟨_, rfl, by simp [h2], ?_, fun s ρ idx hs hval hfit hi => ?_⟩
        · intro e he
          rcases List.mem_cons.1 he with rfl | he
          · have hlS := hsub l (by simp)
            split
            · exact hlS
            · split
              · exact ⟨rfl, hlS, trivial⟩
              · split
                · exact ⟨rfl, trivial, hlS⟩
                · exact ⟨rfl, trivial, rfl, hlS, trivial⟩
          · exact h3 e he
        · simp only [List.map_cons, evalIs, Option.bind_eq_bind, Option.bind_eq_some_iff, pure, Option.some.injEq] at hi
          obtain ⟨v, hv, vs, hvs, rfl⟩ := hi
          cases s with
          | nil => exact hs.elim
          | cons d s =>
          have hin := valid_sliceIdx hs hval
          rw [Tensor.sliceIdx] at hin
          have hval2 := hval
          simp only [Tensor.sliceShape, validIdx_cons] at hval2
          have hrest := h4 s ρ vs hs.2 hval2.2 (hfit.of_le (by have := room_ge_one s; omega) (room_cons d s).2.2) hvs
          simp only [evalIs, hrest, Tensor.sliceIdx]
          have hv' : ρ l = some v := hv
          obtain ⟨_, hf2⟩ := hfit.idx hin (List.mem_cons_self)
          have hst0 : 0 ≤ st := hs.1.1.1
          have hvc : 0 ≤ v * c := Int.mul_nonneg hval2.1.1 (by have := hs.1.2.2; omega)
          have hf1 : Fit (v * c) := hf2.of_le hvc (by omega)
          have hm : iop .Mul v c = some (v * c) := iop_some rfl hf1
          have hadd : iop .Add st (v * c) = some (st + v * c) := iop_some rfl hf2
          have : ∀ e, evalI ρ e = some (st + v * c) → (do let v ← evalI ρ e; let vs ← some (Tensor.sliceIdx r vs); pure (v :: vs)) = some ((st + v * c) :: Tensor.sliceIdx r vs) := by
            intro e he; simp [he]
          apply this
          split
          · rename_i h; simp [evalI, hv', h.1, h.2]
          · split
            · rename_i h; subst h; simp [evalI, hv', hm]
            · split
              · rename_i h; subst h; rw [Int.mul_one] at hadd; simp [evalI, hv', hadd]
              · simp [evalI, hv', hm, hadd]

/-! reshape -/

theorem evalI_foldl_add {ρ : LEnv} {ls : List LoopIndex} {idx st : List Int} {e : IExpr} {v : Int}
    (he : evalI ρ e = some v) (hi : evalIs ρ (ls.map .index) = some idx) (h0 : 0 ≤ v) (hin : NonNegs idx) (hsn : NonNegs st) (hfit : Fit (v + dot idx st)) :
    evalI ρ ((List.zipWith (fun l s => IExpr.bin .Mul (.index l) (.const s)) ls st).foldl (fun x y => .bin .Add x y) e) =
      some (v + dot idx st) := by
  induction ls generalizing idx st e v with
  | nil => simp [evalIs] at hi; subst hi; simp [dot, he]
  | cons l ls ih =>
    simp only [List.map_cons, evalIs, Option.bind_eq_bind, Option.bind_eq_some_iff, pure, Option.some.injEq] at hi
    obtain ⟨x, hx, xs, hxs, rfl⟩ := hi
    cases st with
    | nil => simp [dot, he]
    | cons s st =>
      simp only [List.zipWith_cons_cons, List.foldl_cons, dot]
      have hx' : ρ l = some x := hx
      have h1 := Int.mul_nonneg hin.of_cons.1 hsn.of_cons.1
      have h2 := dot_nonneg hin.of_cons.2 hsn.of_cons.2
      simp only [dot] at hfit
      have e1 : iop .Mul x s = some (x * s) := iop_some rfl (hfit.of_le h1 (by omega))
      have e2 : iop .Add v (x * s) = some (v + x * s) := iop_some rfl (hfit.of_le (by omega) (by omega))
      rw [ih (v := v + x * s) (idx := xs) (by simp [evalI, he, hx', e1, e2]) hxs (by omega) hin.of_cons.2 hsn.of_cons.2 (by rw [Int.add_assoc]; exact hfit), Int.add_assoc]

theorem IWF_foldl_add {S ls : List LoopIndex} (hsub : ∀ l ∈ ls, l ∈ S) {st : List Int} {e : IExpr} (he : IWF S e) :
    IWF S ((List.zipWith (fun l s => IExpr.bin .Mul (.index l) (.const s)) ls st).foldl (fun x y => .bin .Add x y) e) := by
  induction ls generalizing st e with
  | nil => simpa using he
  | cons l ls ih => cases st with
    | nil => simpa using he
    | cons s st =>
      simp only [List.zipWith_cons_cons, List.foldl_cons]
      exact ih (fun x hx => hsub x (List.mem_cons_of_mem _ hx)) ⟨rfl, he, rfl, hsub l (by simp), trivial⟩

theorem unflatten_ok {S : List LoopIndex} {sh : List Int} {e : IExpr} (he : IWF S e) (hnn : NonNeg sh) :
    (unflatten (stridesFromShape sh) e).length = sh.length ∧ (∀ i ∈ unflatten (stridesFromShape sh) e, IWF S i) ∧
    ∀ ρ v, evalI ρ e = some v → 0 ≤ v → v < prod sh → Fit v → evalIs ρ (unflatten (stridesFromShape sh) e) = some (unravel sh v) := by
  induction sh generalizing e with
  | nil => exact ⟨rfl, by simp [unflatten], fun ρ v _ _ _ _ => rfl⟩
  | cons s sh ih =>
    cases sh with
    | nil =>
      simp only [stridesFromShape_cons, stridesFromShape_nil, unflatten]
      refine ⟨rfl, by simpa using he, fun ρ v hv _ _ _ => ?_⟩
      simp [evalIs, hv, unravel]
    | cons s' r =>
      rw [NonNeg.cons] at hnn
      rw [stridesFromShape_cons, stridesFromShape_cons]
      simp only [unflatten]
      rw [← stridesFromShape_cons (s := s')]
      obtain ⟨h1, h2, h3⟩ := ih (e := .bin .Mod e (.const (prod (s' :: r)))) ⟨rfl, he, trivial⟩ hnn.2
      refine ⟨by simp only [List.length_cons, h1], ?_, fun ρ v hv h0 hlt hfit => ?_⟩
      · intro i hi
        rcases List.mem_cons.1 hi with rfl | hi
        · exact ⟨rfl, he, trivial⟩
        · exact h2 i hi
      · have hp : 0 < prod (s' :: r) := by
          have := hnn.2.prod_nonneg
          rcases Int.lt_or_eq_of_le this with h | h
          · exact h
          · simp only [prod_cons] at h hlt; rw [← h] at hlt; omega
        have hfm : Fit (v % prod (s' :: r)) := hfit.of_le (Int.emod_nonneg _ (by omega)) (by
          have := Int.mul_ediv_add_emod v (prod (s' :: r))
          have := Int.mul_nonneg (Int.le_of_lt hp) (Int.ediv_nonneg h0 (Int.le_of_lt hp))
          omega)
        have hd : evalI ρ (.bin .Floordiv e (.const (prod (s' :: r)))) = some (v / prod (s' :: r)) := by
          rw [evalI_bin hv rfl]
          exact iop_some (by simp only [iop0]; rw [if_pos ⟨h0, hp⟩]) (hfit.of_le (Int.ediv_nonneg h0 (by omega)) (Int.ediv_le_self _ h0))
        have hm : evalI ρ (.bin .Mod e (.const (prod (s' :: r)))) = some (v % prod (s' :: r)) := by
          rw [evalI_bin hv rfl]
          exact iop_some (by simp only [iop0]; rw [if_pos ⟨h0, hp⟩]) hfm
        have := h3 ρ _ hm (Int.emod_nonneg _ (by omega)) (Int.emod_lt_of_pos _ hp) hfm
        simp only [evalIs, hd, this]
        rfl

theorem reshapeIdx_ok {g : Graph V} {a : Nat} {inp : List Int} (hne : g.shape a ≠ []) (hnn : NonNeg inp)
    (hp : prod (g.shape a) = prod inp) :
    ∃ es, reshapeIdx (outLoops g a) (g.shape a) inp = .ok es ∧ es.length = inp.length ∧ (∀ i ∈ es, IWF (outLoops g a) i) ∧
      ∀ idx, ValidIdx (g.shape a) idx → Fit (room (g.shape a)) → evalIs (outEnv g a idx) es = some (unravel inp (ravel (g.shape a) idx)) := by
  unfold reshapeIdx
  have hlen := outLoops_length g a
  cases hls : outLoops g a with
  | nil => rw [hls] at hlen; exact absurd (List.eq_nil_of_length_eq_zero hlen.symm) hne
  | cons l ls =>
    cases hst : stridesFromShape (g.shape a) with
    | nil => have := congrArg List.length hst; simp at this; exact absurd this hne
    | cons st sts =>
      have hw : IWF (l :: ls) (.bin .Mul (.index l) (.const st)) := ⟨rfl, by simp [IWF], trivial⟩
      have hw2 := IWF_foldl_add (S := l :: ls) (ls := ls) (st := sts) (fun x hx => List.mem_cons_of_mem _ hx) hw
      simp only [List.zipWith_cons_cons, reduceAdd, pure, Except.pure, bind, Except.bind]
      obtain ⟨h1, h2, h3⟩ := unflatten_ok (sh := inp) hw2 hnn
      refine ⟨_, rfl, h1, h2, fun idx hv hroom => ?_⟩
      have hb := ravel_bounds hv
      have hfit : Fit (ravel (g.shape a) idx) := (hroom.prod hv).of_le hb.1 (by omega)
      have hi := evalIs_loopIdx (g := g) (a := a) (idx := idx) hv.length
      rw [hls] at hi
      simp only [loopIdx, List.map_cons, evalIs, Option.bind_eq_bind, Option.bind_eq_some_iff, pure, Option.some.injEq] at hi
      obtain ⟨x, hx, xs, hxs, rfl⟩ := hi
      have hx' : outEnv g a (x :: xs) l = some x := hx
      have hsn := strides_nonneg hv
      rw [hst] at hsn
      have hxn := (valid_nonneg hv).of_cons
      have hp0 := Int.mul_nonneg hxn.1 hsn.of_cons.1
      have hd0 := dot_nonneg hxn.2 hsn.of_cons.2
      have hd : x * st + dot xs sts = ravel (g.shape a) (x :: xs) := by
        rw [← dot_strides hv.length, hst]; rfl
      have e1 : iop .Mul x st = some (x * st) := iop_some rfl (hfit.of_le hp0 (by omega))
      have hval := evalI_foldl_add (st := sts) (v := x * st) (e := .bin .Mul (.index l) (.const st)) (by simp [evalI, hx', e1]) hxs hp0 hxn.2 hsn.of_cons.2 (by rw [hd]; exact hfit)
      rw [hd] at hval
      exact h3 _ _ hval hb.1 (by omega) hfit

end Whale
