import Verif.Proofs.ReduceIdx
import Verif.Spec.Reach
/-
Correctness of the expression of one array, all operations.
-/
namespace Whale
open Algo
variable {V : Type} [Lim]

theorem evalD_func {A : Scalar V} {g : Graph V} {ρ : LEnv} {x : Nat} {is : List IExpr} {j : List Int}
    (h : evalIs ρ is = some j) (hv : ValidIdx (g.shape x) j) : evalD A (denRd A g) ρ (.func x is) = some ((den A g x).get j) := by
  simp [evalD, h, denRd, hv]

theorem foldlM_some {α β : Type} {l : List α} {f : β → α → Option β} {h : β → α → β} {b : β}
    (hf : ∀ b, ∀ x ∈ l, f b x = some (h b x)) : l.foldlM f b = some (l.foldl h b) := by
  induction l generalizing b with
  | nil => rfl
  | cons a l ih =>
    rw [List.foldlM_cons, hf b a (by simp)]
    exact ih (fun b x hx => hf b x (by simp [hx]))

/-! reductions -/

theorem validIdx_keepdims {axis : List Nat} {s idx : List Int} (k : Nat)
    (hv : ValidIdx ((s.zipIdx k).map (fun p => if p.2 ∈ axis then 1 else p.1)) idx) :
    ValidIdx (spat (axisMask axis k s.length) s) (spat (axisMask axis k idx.length) idx) ∧
    ∀ j : List Int, j.length = s.length → ((j.zipIdx k).map (fun p => if p.2 ∈ axis then 0 else p.1) = idx ↔
      spat (axisMask axis k s.length) j = spat (axisMask axis k idx.length) idx) := by
  induction s generalizing k idx with
  | nil =>
    simp only [List.zipIdx_nil, List.map_nil, validIdx_nil] at hv
    subst hv
    refine ⟨by simp [spat], fun j hj => ?_⟩
    have := List.eq_nil_of_length_eq_zero hj
    subst this; simp
  | cons n s ih => cases idx with
    | nil => simp [List.zipIdx_cons] at hv
    | cons x idx =>
      simp only [List.zipIdx_cons, List.map_cons, validIdx_cons] at hv
      obtain ⟨h1, h2⟩ := ih (k+1) hv.2
      simp only [List.length_cons, axisMask_succ]
      by_cases hk : k ∈ axis
      · simp only [hk, if_true] at hv
        simp only [hk, decide_true, spat]
        refine ⟨h1, fun j hj => ?_⟩
        cases j with
        | nil => simp at hj
        | cons y j =>
          have := h2 j (by simpa using hj)
          simp only [List.zipIdx_cons, List.map_cons, hk, if_true, List.cons.injEq, this]
          constructor
          · exact fun h => h.2
          · intro h; exact ⟨by omega, h⟩
      · simp only [hk, if_false] at hv
        simp only [hk, decide_false, spat, validIdx_cons]
        refine ⟨⟨hv.1, h1⟩, fun j hj => ?_⟩
        cases j with
        | nil => simp at hj
        | cons y j =>
          have := h2 j (by simpa using hj)
          simp only [List.zipIdx_cons, List.map_cons, hk, if_false, List.cons.injEq, this]
          simp [spat]

/-- The spatial coordinates of an output index. -/
def outSpat {α : Type} (axis : List Nat) (kd : Bool) (l : List α) : List α :=
  if kd then (l.zipIdx.filter (fun p => decide (p.2 ∉ axis))).map (·.1) else l

theorem sum_elems {axis : List Nat} {kd : Bool} {s idx : List Int} (hv : ValidIdx (Tensor.sumShape axis kd s) idx) :
    ValidIdx (spat (axisMask axis 0 s.length) s) (outSpat axis kd idx) ∧
    (indices s).filter (fun j => decide (Tensor.sumProj axis kd j = idx)) =
      (indices (redu (axisMask axis 0 s.length) s)).map (weave (axisMask axis 0 s.length) (outSpat axis kd idx)) := by
  have main : ValidIdx (spat (axisMask axis 0 s.length) s) (outSpat axis kd idx) ∧
      ∀ j, j.length = s.length → (Tensor.sumProj axis kd j = idx ↔ spat (axisMask axis 0 s.length) j = outSpat axis kd idx) := by
    cases kd with
    | true =>
      simp only [Tensor.sumShape, if_true] at hv
      have ⟨h1, h2⟩ := validIdx_keepdims 0 hv
      simp only [outSpat, if_true, zipIdx_filter_spat, Tensor.sumProj]
      exact ⟨h1, h2⟩
    | false =>
      simp only [Tensor.sumShape, Bool.false_eq_true, if_false] at hv
      rw [zipIdx_filter_spat] at hv
      simp only [outSpat, Bool.false_eq_true, if_false, Tensor.sumProj]
      refine ⟨hv, fun j hj => ?_⟩
      rw [zipIdx_filter_spat, hj]
  refine ⟨main.1, ?_⟩
  rw [← filter_indices (by simp) main.1]
  apply List.filter_congr
  intro j hj
  have := main.2 j (mem_indices.1 hj).length
  simp [this]

theorem evalIs_congr {ρ σ : LEnv} {es : List IExpr} (h : ∀ e ∈ es, evalI ρ e = evalI σ e) : evalIs ρ es = evalIs σ es := by
  induction es with
  | nil => rfl
  | cons e es ih => simp only [evalIs, h e (by simp), ih (fun x hx => h x (by simp [hx]))]

theorem evalIs_bind_self {ρ : LEnv} {rs : List LoopIndex} {j : List Int} (hn : rs.Nodup) (hl : rs.length = j.length) :
    evalIs (ρ.bind rs j) (rs.map .index) = some j := by
  apply evalIs_eq (by simpa using hl)
  intro k hk
  simp only [List.getElem_map, evalI]
  exact bind_getElem hn hl (by simpa using hk)

theorem outSpat_mem {α : Type} {axis : List Nat} {kd : Bool} {l : List α} {x : α} (h : x ∈ outSpat axis kd l) : x ∈ l := by
  unfold outSpat at h
  split at h
  · rw [zipIdx_filter_spat] at h; exact mem_spat h
  · exact h

theorem evalIs_outSpat {ρ : LEnv} {axis : List Nat} {kd : Bool} {ls : List LoopIndex} {vs : List Int} (h : evalIs ρ (ls.map .index) = some vs) :
    evalIs ρ ((outSpat axis kd ls).map .index) = some (outSpat axis kd vs) := by
  unfold outSpat
  split
  · rw [zipIdx_filter_spat, zipIdx_filter_spat]
    have hl := evalIs_length h
    rw [List.length_map] at hl
    rw [hl]; exact evalIs_spat h
  · exact h

theorem sumShape_spat_length {axis : List Nat} {kd : Bool} {s : List Int} {ls : List LoopIndex} (hl : ls.length = (Tensor.sumShape axis kd s).length) :
    (outSpat axis kd ls).length = ((axisMask axis 0 s.length).filter (· = false)).length := by
  cases kd with
  | true =>
    simp only [Tensor.sumShape, if_true, List.length_map, List.length_zipIdx] at hl
    simp only [outSpat, if_true, zipIdx_filter_spat]
    rw [hl, length_spat (by simp [hl])]
  | false =>
    simp only [Tensor.sumShape, Bool.false_eq_true, if_false, zipIdx_filter_spat] at hl
    rw [length_spat (by simp)] at hl
    simpa [outSpat] using hl

theorem reduceExpr_ok {g : Graph V} {a x : Nat} {axis : List Nat} {kd : Bool} (hx : x < a) (hax : ∀ k ∈ axis, k < g.ndim x)
    (hsh : g.shape a = Tensor.sumShape axis kd (g.shape x)) :
    ∃ e, reduceExpr g a x axis kd (outLoops g a) = .ok e ∧ RootWF g a e ∧
      ∀ A idx, ValidIdx (g.shape a) idx → (den A g x).shape = g.shape x →
        evalR A (denRd A g) (outEnv g a idx) e = some (((den A g x).sum A axis kd).get idx) := by
  obtain ⟨hkeys, hval, hnd, hndp⟩ := reducedDict_spec (a := a) (s := g.shape x) (axis := axis) hax
  generalize hd : reducedDict a (g.shape x) axis.pySort = d at hkeys hval hnd hndp
  have hlsl : (outLoops g a).length = (Tensor.sumShape axis kd (g.shape x)).length := by rw [outLoops_length, Graph.ndim, hsh]
  have hsplen := sumShape_spat_length (ls := outLoops g a) hlsl
  have hknd : (d.map (·.1)).Nodup := by rw [hkeys]; exact List.nodup_range.filter _
  have hlook : ((List.range' 0 (g.ndim x)).filter (fun k => decide (k ∈ axis))).map (fun k => d.lookup k) = (d.map (·.2)).map some := by
    rw [← List.range_eq_range']
    have : (List.range (g.ndim x)).filter (fun k => decide (k ∈ axis)) = d.map (·.1) := hkeys.symm
    rw [this, List.map_map, List.map_map]
    apply List.map_congr_left
    intro p hp
    exact lookup_of_mem hknd hp
  have hidx := reduceIdx_ok (red := d) (axis := axis) 0 (g.ndim x) (outSpat axis kd (outLoops g a)) (d.map (·.2)) hlook hsplen
  rw [← List.range_eq_range'] at hidx
  have hext : (d.map (·.2)).map (·.extent) = redu (axisMask axis 0 (g.ndim x)) (g.shape x) := by
    conv => rhs; rw [range_geti (g.shape x)]
    have h2 := redu_range axis (geti (g.shape x)) 0 (g.ndim x)
    rw [← List.range_eq_range'] at h2
    unfold Graph.ndim at *
    rw [h2, ← hkeys, List.map_map, List.map_map]
    apply List.map_congr_left
    intro p hp
    exact (hval p hp).2.2
  have hrlen : (d.map (·.2)).length = ((axisMask axis 0 (g.ndim x)).filter (· = true)).length := by
    have := congrArg List.length hkeys
    rw [List.length_map] at this ⊢
    rw [this]
    unfold axisMask Graph.ndim
    rw [List.filter_map, List.length_map, ← List.range_eq_range']
    congr 1
    apply List.filter_congr; intro y _; simp
  refine ⟨.red .Sum (.func x ((weave (axisMask axis 0 (g.ndim x)) (outSpat axis kd (outLoops g a)) (d.map (·.2))).map .index)) (d.map (·.2)), ?_, ?_, ?_⟩
  · unfold reduceExpr
    simp only [hd]
    have : (if kd = true then List.map (fun x => x.fst) (List.filter (fun p => decide ¬p.snd ∈ axis) (outLoops g a).zipIdx) else outLoops g a) = outSpat axis kd (outLoops g a) := rfl
    rw [this, hidx]; rfl
  · refine ⟨rfl, ⟨hndp, ?_⟩, hx, ?_, ?_⟩
    · intro l hl
      simp only [List.mem_map] at hl
      obtain ⟨p, hp, rfl⟩ := hl
      have := hval p hp
      exact ⟨this.1, this.2.1⟩
    · rw [List.length_map]; exact (length_weave (m := axisMask axis 0 (g.ndim x)) hsplen hrlen).trans (by simp)
    · intro i hi
      simp only [List.mem_map] at hi
      obtain ⟨l, hl, rfl⟩ := hi
      show l ∈ _
      rcases mem_weave hl with h | h
      · exact List.mem_append_left _ (outSpat_mem h)
      · exact List.mem_append_right _ h
  · intro A idx hv hds
    rw [hsh] at hv
    obtain ⟨hsv, helems⟩ := sum_elems hv
    simp only [evalR, Tensor.sum, hds]
    rw [hext, helems, List.foldl_map]
    apply foldlM_some
    intro b j hj
    have hjv := mem_indices.1 hj
    have hjl : (d.map (·.2)).length = j.length := by
      rw [hjv.length]; have := congrArg List.length hext; rw [List.length_map] at this; exact this
    have hdisj : ∀ l ∈ outLoops g a, l ∉ d.map (·.2) := by
      intro l hl hl'
      simp only [List.mem_map] at hl'
      obtain ⟨p, hp, rfl⟩ := hl'
      have h1 := (mem_outLoops hl).2
      rw [(hval p hp).2.1] at h1; simp at h1
    have hout : evalIs ((outEnv g a idx).bind (d.map (·.2)) j) ((outLoops g a).map .index) = some idx := by
      rw [← evalIs_loopIdx (g := g) (a := a) (idx := idx) (by unfold Graph.ndim; rw [hsh]; exact hv.length)]
      apply evalIs_congr
      intro e he
      simp only [List.mem_map] at he
      obtain ⟨l, hl, rfl⟩ := he
      exact bind_not_mem (hdisj l hl)
    have hw := evalIs_weave (m := axisMask axis 0 (g.ndim x)) (evalIs_outSpat (axis := axis) (kd := kd) hout) (evalIs_bind_self hnd hjl)
    have hmem : weave (axisMask axis 0 (g.ndim x)) (outSpat axis kd idx) j ∈ (indices (g.shape x)).filter (fun j => decide (Tensor.sumProj axis kd j = idx)) := by
      rw [helems]; exact List.mem_map.2 ⟨j, hj, rfl⟩
    have hjval := mem_indices.1 (List.mem_filter.1 hmem).1
    rw [evalD_func hw hjval]
    rfl

/-! pad, dilate -/

theorem zipIdx_map_getElem {g : Graph V} {a k : Nat} {f : LoopIndex × Nat → IExpr} (hk : k < ((outLoops g a).zipIdx.map f).length) :
    ((outLoops g a).zipIdx.map f)[k] = f ((outLoops g a).getD k default, k) := by
  have h' : k < (outLoops g a).length := by simpa using hk
  simp [List.getD_eq_getElem?_getD, List.getElem?_eq_getElem h']

theorem evalIs_set {g : Graph V} {a : Nat} {idx : List Int} (hl : idx.length = g.ndim a) {dim : Int} (h0 : 0 ≤ dim)
    (h1 : dim < g.ndim a) {F : LoopIndex → IExpr} {v : Int}
    (hF : evalI (outEnv g a idx) (F ((outLoops g a).getD dim.toNat default)) = some v) :
    evalIs (outEnv g a idx) ((outLoops g a).zipIdx.map fun p => if (p.2 : Int) = dim then F p.1 else .index p.1) =
      some (idx.set dim.toNat v) := by
  apply evalIs_eq (by simp [outLoops_length, hl])
  intro k hk
  have hk' : k < g.ndim a := by simpa [outLoops_length] using hk
  rw [zipIdx_map_getElem hk, geti_set]
  simp only
  by_cases hkd : (k : Int) = dim
  · have : dim.toNat = k := by omega
    rw [if_pos hkd, if_pos ⟨this, by omega⟩, ← this]; exact hF
  · rw [if_neg hkd, if_neg (by omega)]
    simp only [evalI]; exact outEnv_getD hl hk'

theorem IWF_set {g : Graph V} {a : Nat} {dim : Int} {F : LoopIndex → IExpr} (hF : ∀ l ∈ outLoops g a, IWF (outLoops g a) (F l)) :
    ∀ i ∈ ((outLoops g a).zipIdx.map fun p => if (p.2 : Int) = dim then F p.1 else IExpr.index p.1), IWF (outLoops g a) i := by
  intro i hi
  simp only [List.mem_map] at hi
  obtain ⟨p, hp, rfl⟩ := hi
  have hp' : p.1 ∈ outLoops g a := by
    have := List.mem_zipIdx' hp; rw [this.2]; exact List.getElem_mem _
  split
  · exact hF _ hp'
  · exact hp'

theorem padExpr_ok {g : Graph V} {a x : Nat} {dim b c : Int} (hx : x < a) (h0 : 0 ≤ dim) (h1 : dim < g.ndim x)
    (hsh : g.shape a = (g.shape x).set dim.toNat (geti (g.shape x) dim.toNat + (b + c))) :
    ∃ e, padExpr g x dim b (outLoops g a) = .ok e ∧ RootWF g a e ∧
      ∀ A idx, ValidIdx (g.shape a) idx → Fit (room (g.shape a)) → Fit (room (g.shape x)) → (den A g x).shape = g.shape x →
        evalR A (denRd A g) (outEnv g a idx) e = some (((den A g x).pad A dim.toNat b c).get idx) := by
  obtain ⟨d, rfl⟩ : ∃ d : Nat, dim = d := ⟨dim.toNat, by omega⟩
  have hnd : g.ndim a = g.ndim x := by unfold Graph.ndim; rw [hsh, List.length_set]
  have hda : d < (outLoops g a).length := by rw [outLoops_length]; omega
  have hdx : d < (g.shape x).length := by unfold Graph.ndim at h1; omega
  unfold padExpr
  rw [pyGet_nat hda, pyGet_nat hdx]
  have hlmem : (outLoops g a)[d] ∈ outLoops g a := List.getElem_mem _
  refine ⟨_, rfl, ⟨rfl, ⟨rfl, ⟨rfl, hlmem, trivial⟩, ⟨rfl, hlmem, trivial⟩⟩, ⟨hx, ?_, IWF_set (F := fun l => .bin .Sub (.index l) (.const b)) (fun l hl => ⟨rfl, hl, trivial⟩)⟩, trivial⟩, ?_⟩
  · simp [outLoops_length, hnd]
  · intro A idx hv hroom hrx hds
    have hil : idx.length = g.ndim a := hv.length
    have hl := outEnv_getElem (g := g) (a := a) (idx := idx) hil hda
    simp only [Int.toNat_natCast] at *
    have hn : (g.shape x)[d] = geti (g.shape x) d := (geti_eq_getElem hdx).symm
    have hcond : evalI (outEnv g a idx) (.bin .And (.bin .Ge (.index (outLoops g a)[d]) (.const b)) (.bin .Lt (.index (outLoops g a)[d]) (.const (b + (g.shape x)[d]))))
        = some (if b ≤ geti idx d ∧ geti idx d < b + geti (g.shape x) d then 1 else 0) := by
      have e1 : iop .Ge (geti idx d) b = some (if b ≤ geti idx d then 1 else 0) := iop_some rfl (hroom.bool _)
      have e2 : iop .Lt (geti idx d) (b + geti (g.shape x) d) = some (if geti idx d < b + geti (g.shape x) d then 1 else 0) := iop_some rfl (hroom.bool _)
      simp only [evalI, hl, hn, Option.bind_eq_bind, Option.bind_some, e1, e2]
      refine iop_some ?_ (hroom.bool _)
      by_cases c1 : b ≤ geti idx d <;> by_cases c2 : geti idx d < b + geti (g.shape x) d <;> simp [c1, c2, iop0]
    simp only [evalR, evalD, hcond, Option.bind_eq_bind, Option.bind_some, Tensor.pad, hds]
    split
    · rename_i hc
      rw [if_pos (by omega)]
      have hidx := evalIs_set (g := g) (a := a) (idx := idx) hil (dim := d) (by omega) (by omega) (F := fun l => .bin .Sub (.index l) (.const b)) (v := geti idx d - b)
        (by simp only [Int.toNat_natCast, evalI, outEnv_getD hil (by omega : d < g.ndim a), Option.bind_eq_bind, Option.bind_some]
            refine iop_some rfl fun m hm => ?_
            have := hrx m hm
            have := room_mem (List.getElem_mem hdx)
            omega)
      simp only [Int.toNat_natCast] at hidx
      rw [hidx]
      simp only [Option.bind_some, denRd]
      rw [hsh] at hv
      rw [if_pos (validIdx_set (i := geti idx d - b) hdx hv rfl (by omega) (by omega))]
    · simp

theorem dilateExpr_ok {g : Graph V} {a x : Nat} {dim st : Int} (hx : x < a) (h0 : 0 ≤ dim) (h1 : dim < g.ndim x) (hst : 1 ≤ st)
    (hsh : g.shape a = (g.shape x).set dim.toNat ((geti (g.shape x) dim.toNat - 1) * st + 1)) :
    ∃ e, dilateExpr x dim st (outLoops g a) = .ok e ∧ RootWF g a e ∧
      ∀ A idx, ValidIdx (g.shape a) idx → Fit (room (g.shape a)) → (den A g x).shape = g.shape x →
        evalR A (denRd A g) (outEnv g a idx) e = some (((den A g x).dilate A dim.toNat st).get idx) := by
  obtain ⟨d, rfl⟩ : ∃ d : Nat, dim = d := ⟨dim.toNat, by omega⟩
  have hnd : g.ndim a = g.ndim x := by unfold Graph.ndim; rw [hsh, List.length_set]
  have hda : d < (outLoops g a).length := by rw [outLoops_length]; omega
  have hdx : d < (g.shape x).length := by unfold Graph.ndim at h1; omega
  unfold dilateExpr
  rw [pyGet_nat hda]
  have hlmem : (outLoops g a)[d] ∈ outLoops g a := List.getElem_mem _
  refine ⟨_, rfl, ⟨rfl, ⟨rfl, ⟨rfl, hlmem, trivial⟩, trivial⟩, ⟨hx, ?_, IWF_set (F := fun l => .bin .Floordiv (.index l) (.const st)) (fun l hl => ⟨rfl, hl, trivial⟩)⟩, trivial⟩, ?_⟩
  · simp [outLoops_length, hnd]
  · intro A idx hv hroom hds
    have hil : idx.length = g.ndim a := hv.length
    have hl := outEnv_getElem (g := g) (a := a) (idx := idx) hil hda
    simp only [Int.toNat_natCast] at *
    have hvd := (validIdx_iff.1 hv).2 d (by rw [hsh]; simpa using hdx)
    rw [hsh, geti_set, if_pos ⟨rfl, by simpa using hdx⟩] at hvd
    have hfit : Fit (geti idx d) := (hroom.idx hv (by rw [geti_eq_getElem (by rw [hil]; simpa [outLoops_length] using hda)]; exact List.getElem_mem _)).2
    have hfm : Fit (geti idx d % st) := hfit.of_le (Int.emod_nonneg _ (by omega)) (by
      have := Int.mul_ediv_add_emod (geti idx d) st
      have := Int.mul_nonneg (show 0 ≤ st by omega) (Int.ediv_nonneg hvd.1 (show 0 ≤ st by omega))
      omega)
    have hcond : evalI (outEnv g a idx) (.bin .Eq (.bin .Mod (.index (outLoops g a)[d]) (.const st)) (.const 0))
        = some (if geti idx d % st = 0 then 1 else 0) := by
      have e1 : iop .Mod (geti idx d) st = some (geti idx d % st) := iop_some (by simp only [iop0]; rw [if_pos ⟨hvd.1, by omega⟩]) hfm
      have e2 : iop .Eq (geti idx d % st) 0 = some (if geti idx d % st = 0 then 1 else 0) := iop_some rfl (hroom.bool _)
      simp only [evalI, hl, Option.bind_eq_bind, Option.bind_some, e1, e2]
    simp only [evalR, evalD, hcond, Option.bind_eq_bind, Option.bind_some, Tensor.dilate]
    split
    · rename_i hc
      rw [if_pos (by omega)]
      have hidx := evalIs_set (g := g) (a := a) (idx := idx) hil (dim := d) (by omega) (by omega) (F := fun l => .bin .Floordiv (.index l) (.const st)) (v := geti idx d / st)
        (by simp only [Int.toNat_natCast, evalI, outEnv_getD hil (by omega : d < g.ndim a), Option.bind_eq_bind, Option.bind_some]
            exact iop_some (by simp only [iop0]; rw [if_pos ⟨hvd.1, by omega⟩]) (hfit.of_le (Int.ediv_nonneg hvd.1 (by omega)) (Int.ediv_le_self _ hvd.1)))
      simp only [Int.toNat_natCast] at hidx
      rw [hidx]
      simp only [Option.bind_some, denRd]
      rw [hsh] at hv
      rw [if_pos (validIdx_set hdx hv rfl (Int.ediv_nonneg hvd.1 (by omega)) (dilate_bound hst hvd.2))]
    · simp

/-- The expression built for an array computes its meaning from the meanings of the inputs. -/
theorem mkExpr_ok {g : Graph V} (h : WF g) {a : Nat} (ha : a < g.length) (hns : ¬ ScalarReshape g a) :
    ∃ e, mkExpr g a = .ok e ∧ RootWF g a e ∧
      (Small g a → ∀ A idx, ValidIdx (g.shape a) idx → evalR A (denRd A g) (outEnv g a idx) e = some ((den A g a).get idx)) := by
  have hn := h a ha
  have hlt := h.inputs_lt ha
  unfold NodeOK at hn
  have hcd : (g.nd a).ctx = g.ctx a := rfl
  have hsd : g.shape a = (g.nd a).shape := rfl
  have hden : ∀ A, den A g a = denStep A g a := fun A => den_eq A h ha
  unfold denStep denCtx at hden
  rw [hcd] at hn
  simp only [hcd] at hden
  unfold mkExpr
  cases hc : g.ctx a <;> simp only [hc, Ctx.inputs, List.mem_cons, List.not_mem_nil, or_false, forall_eq,
    forall_eq_or_imp] at hlt hn hden ⊢
  case const =>
    refine ⟨_, rfl, ⟨ha, Nat.le_refl _, hc, by simp [loopIdx, outLoops_length], IWF_loopIdx _⟩, fun hS A idx hv => ?_⟩
    simp only [evalR, evalD, evalIs_loopIdx (g := g) (a := a) hv.length, Option.bind_eq_bind, Option.bind_some, denRd, hv, if_true]
  case unary op x =>
    have hsx : g.shape a = g.shape x := by rw [hsd, hn.2.2]; rfl
    refine ⟨_, rfl, ⟨hn.2.1, hlt, by simp [loopIdx, outLoops_length, Graph.ndim, hsx], IWF_loopIdx _⟩, fun hS A idx hv => ?_⟩
    simp only [evalR, evalD, evalIs_loopIdx (g := g) (a := a) hv.length, Option.bind_eq_bind, Option.bind_some, denRd]
    rw [hsx] at hv
    rw [if_pos hv, hden]; rfl
  case binary op l r =>
    have hsx : g.shape a = g.shape l := by rw [hsd, hn.2.2.2.2]; rfl
    have hsr : g.shape a = g.shape r := by rw [hsx]; exact hn.2.2.2.1
    refine ⟨_, rfl, ⟨hn.2.2.1, ⟨hlt.1, by simp [loopIdx, outLoops_length, Graph.ndim, hsx], IWF_loopIdx _⟩,
      ⟨hlt.2, by simp [loopIdx, outLoops_length, Graph.ndim, hsr], IWF_loopIdx _⟩⟩, fun hS A idx hv => ?_⟩
    simp only [evalR, evalD, evalIs_loopIdx (g := g) (a := a) hv.length, Option.bind_eq_bind, Option.bind_some, denRd]
    rw [if_pos (hsx ▸ hv), if_pos (hsr ▸ hv), hden]; rfl
  case sum x axis kd =>
    have hsx : g.shape a = Tensor.sumShape axis kd (g.shape x) := by rw [hsd, hn.2.2]; rfl
    obtain ⟨e, h1, h2, h3⟩ := reduceExpr_ok (kd := kd) hlt hn.2.1 hsx
    refine ⟨e, h1, h2, fun hS A idx hv => ?_⟩
    rw [h3 A idx hv (den_shape A h (by omega)), hden]
  case reshape x s =>
    have hsx : g.shape a = s := by rw [hsd, hn.2.2.2.2.2]; rfl
    have hne : g.shape a ≠ [] := fun e => hns ⟨x, by rw [hc, ← hsx, e]⟩
    obtain ⟨es, h1, h2, h3, h4⟩ := reshapeIdx_ok (g := g) (a := a) (inp := g.shape x) hne hn.2.2.2.1 (by rw [hsx]; exact hn.2.1)
    rw [h1]
    refine ⟨_, rfl, ⟨hlt, h2, h3⟩, fun hS A idx hv => ?_⟩
    have hb := ravel_bounds hv
    have hu := valid_unravel hn.2.2.2.1 hb.1 (by rw [← hn.2.1, ← hsx]; exact hb.2)
    simp only [evalR]
    rw [evalD_func (h4 idx hv (hS.room .refl)) hu.1, hden]
    simp only [Tensor.reshape, den_shape A h (show x < g.length by omega), hsx]
  case broadcast x s =>
    have hsx : g.shape a = s := by rw [hsd, hn.2.2]; rfl
    have hle : (g.shape x).length ≤ g.ndim a := by unfold Graph.ndim; rw [hsx]; exact hn.2.1.1
    rw [← hsx, broadcastIdx_ok hle]
    refine ⟨_, rfl, ⟨hlt, by simp [Graph.ndim], ?_⟩, fun hS A idx hv => ?_⟩
    · intro i hi
      simp only [List.mem_map, List.mem_range] at hi
      obtain ⟨k, hk, rfl⟩ := hi
      split
      · trivial
      · exact getD_outLoops_mem (by omega)
    · simp only [evalR]
      rw [evalD_func (evalIs_broadcast hle hv.length) (by
        have := valid_bcastIdx (s := g.shape x) (t := g.shape a) (idx := idx) (by rw [hsx]; exact hn.2.1) hv
        exact this), hden]
      simp only [Tensor.broadcastTo, den_shape A h (show x < g.length by omega), bcastIdx, Graph.ndim, hsx]
  case slice x subs =>
    have hsl : (g.strides x).length = subs.length := by rw [h.strides_length (by omega), hn.2.1.length]
    have hsx : g.shape a = Tensor.sliceShape subs := by rw [hsd, hn.2.2]; exact sliceLayout_shape hsl
    obtain ⟨es, h1, h2, h3, h4⟩ := sliceIdxE_ok (S := outLoops g a) (ls := outLoops g a) (subs := subs) (fun _ h => h)
      (by rw [outLoops_length, Graph.ndim, hsx])
    rw [h1]
    refine ⟨_, rfl, ⟨hlt, by rw [h2, hn.2.1.length]; rfl, h3⟩, fun hS A idx hv => ?_⟩
    simp only [evalR]
    rw [evalD_func (h4 _ _ idx hn.2.1 (hsx ▸ hv) (hS.room (.step .refl (by rw [hc]; simp [Ctx.inputs]))) (evalIs_loopIdx hv.length)) (valid_sliceIdx hn.2.1 (hsx ▸ hv)), hden]
    rfl
  case transpose x axes =>
    have hsx : g.shape a = axes.map (geti (g.shape x)) := by rw [hsd, hn.2.2]; rfl
    have hnd : g.ndim a = g.ndim x := by unfold Graph.ndim; rw [hsx, List.length_map]; exact perm_range_length hn.2.1
    have hp : axes.Perm (List.range (g.ndim a)) := by rw [hnd]; exact hn.2.1
    rw [transposeIdx_ok hp]
    refine ⟨_, rfl, ⟨hlt, by simp [perm_range_length hn.2.1], ?_⟩, fun hS A idx hv => ?_⟩
    · intro i hi
      simp only [List.mem_map, List.mem_range] at hi
      obtain ⟨k, hk, rfl⟩ := hi
      have hlen := perm_range_length hp
      have := List.idxOf_lt_length_of_mem (perm_range_mem hp (by omega : k < g.ndim a))
      exact getD_outLoops_mem (by omega)
    · simp only [evalR]
      rw [evalD_func (evalIs_transpose hp hv.length) (valid_permIdx hn.2.1 (hsx ▸ hv)), hden]
      rfl
  case contiguous x =>
    have hsx : g.shape a = g.shape x := by rw [hsd, hn.2]; rfl
    refine ⟨_, rfl, ⟨hlt, by simp [loopIdx, outLoops_length, Graph.ndim, hsx], IWF_loopIdx _⟩, fun hS A idx hv => ?_⟩
    simp only [evalR]
    rw [evalD_func (evalIs_loopIdx hv.length) (hsx ▸ hv), hden]
  case pad x dim b c =>
    have hsx : g.shape a = (g.shape x).set dim.toNat (geti (g.shape x) dim.toNat + (b + c)) := by rw [hsd, hn.2.2]; rfl
    obtain ⟨e, h1, h2, h3⟩ := padExpr_ok hlt hn.2.1.1 hn.2.1.2 hsx
    refine ⟨e, h1, h2, fun hS A idx hv => ?_⟩
    rw [h3 A idx hv (hS.room .refl) (hS.room (.step .refl (by rw [hc]; simp [Ctx.inputs]))) (den_shape A h (by omega)), hden]
  case dilate x dim st =>
    have hsx : g.shape a = (g.shape x).set dim.toNat ((geti (g.shape x) dim.toNat - 1) * st + 1) := by rw [hsd, hn.2.2.2]; rfl
    obtain ⟨e, h1, h2, h3⟩ := dilateExpr_ok hlt hn.2.1.1 hn.2.1.2 hn.2.2.1 hsx
    refine ⟨e, h1, h2, fun hS A idx hv => ?_⟩
    rw [h3 A idx hv (hS.room .refl) (den_shape A h (by omega)), hden]

end Whale
