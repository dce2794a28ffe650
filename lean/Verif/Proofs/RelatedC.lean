import Verif.Proofs.RelatedW
import Verif.Proofs.Numbers
import Verif.Proofs.DemoDev
/-
Integers of Python and C against exact 64-bit integers.
-/
namespace Whale
open Hist Mat Sem
variable {V W U V1 V2 : Type} {R : V1 → V2 → Prop}

mutual
theorem map_map (f : V → W) (g : W → U) : ∀ l : Nested V, (l.map f).map g = l.map fun v => g (f v)
  | .leaf v => rfl
  | .node l => by simp only [Nested.map, mapL_map f g l]
theorem mapL_map (f : V → W) (g : W → U) : ∀ l : List (Nested V), Nested.mapL g (Nested.mapL f l) = Nested.mapL (fun v => g (f v)) l
  | [] => rfl
  | x :: xs => by simp only [Nested.mapL, map_map f g x, mapL_map f g xs]
end

mutual
theorem map_id : ∀ l : Nested V, l.map id = l
  | .leaf v => rfl
  | .node l => by simp only [Nested.map, mapL_id l]
theorem mapL_id : ∀ l : List (Nested V), Nested.mapL id l = l
  | [] => rfl
  | x :: xs => by simp only [Nested.mapL, map_id x, mapL_id xs]
end

mutual
theorem map_congr {f g : V → W} : ∀ l : Nested V, (∀ v ∈ leaves l, f v = g v) → l.map f = l.map g
  | .leaf v, h => by simp only [Nested.map, h v (by simp [leaves])]
  | .node l, h => by simp only [Nested.map, mapL_congr l (by simpa [leaves] using h)]
theorem mapL_congr {f g : V → W} : ∀ l : List (Nested V), (∀ v ∈ leavesL l, f v = g v) → Nested.mapL f l = Nested.mapL g l
  | [], _ => rfl
  | x :: xs, h => by
    simp only [Nested.mapL, map_congr x fun v hv => h v (by simp [leavesL, hv]), mapL_congr xs fun v hv => h v (by simp [leavesL, hv])]
end

mutual
theorem leaves_map (f : V → W) : ∀ l : Nested V, leaves (l.map f) = (leaves l).map f
  | .leaf v => rfl
  | .node l => by simp only [Nested.map, leaves, leavesL_map f l]
theorem leavesL_map (f : V → W) : ∀ l : List (Nested V), leavesL (Nested.mapL f l) = (leavesL l).map f
  | [] => rfl
  | x :: xs => by simp only [Nested.mapL, leavesL, List.map_append, leaves_map f x, leavesL_map f xs]
end

theorem map_snd {l : Nested (V × W)} {f : V → W} (h : ∀ p ∈ leaves l, p.2 = f p.1) : l.map Prod.snd = (l.map Prod.fst).map f := by
  rw [map_map]; exact map_congr l h

/-- What `tolist` returns. -/
theorem tolist_value {b : Backend V} (hb : Faithful b) {w : World V} (hr : Reachable b w) {a : Nat} (hno : NoOffsetReshape w.g a) {l v} (h : step b w (.tolist a) = .ok (.list l, v)) :
    l = (den b.A w.g a).toNested := by
  unfold step at h
  split at h
  · rename_i hin
    have ha := hin a (by simp [Call.arrays])
    simp only [exec1] at h
    cases ht : tolist b w a with
    | error e => rw [ht] at h; cases h
    | ok p =>
      rw [ht] at h; cases h
      obtain ⟨l', cpu, ev, e, _, _, h3⟩ := tolist_ok (hr.inv hb).winv ha (tolist_avail ht)
      rw [ht] at e; cases e
      exact h3 hno
  · cases h

theorem noOffset_rel {g1 : Graph V1} {g2 : Graph V2} (h : GRel R g1 g2) (a : Nat) : NoOffsetReshape g1 a ↔ NoOffsetReshape g2 a := by
  constructor
  · intro hn
    induction hn with
    | base hv => exact .base (by rw [← h.ctx]; exact hv)
    | reshape hc ho _ ih => exact .reshape (by rw [← h.ctx]; exact hc) (by rw [← h.offset]; exact ho) ih
    | broadcast hc _ ih => exact .broadcast (by rw [← h.ctx]; exact hc) ih
    | slice hc _ ih => exact .slice (by rw [← h.ctx]; exact hc) ih
    | transpose hc _ ih => exact .transpose (by rw [← h.ctx]; exact hc) ih
  · intro hn
    induction hn with
    | base hv => exact .base (by rw [h.ctx]; exact hv)
    | reshape hc ho _ ih => exact .reshape (by rw [h.ctx]; exact hc) (by rw [h.offset]; exact ho) ih
    | broadcast hc _ ih => exact .broadcast (by rw [h.ctx]; exact hc) ih
    | slice hc _ ih => exact .slice (by rw [h.ctx]; exact hc) ih
    | transpose hc _ ih => exact .transpose (by rw [h.ctx]; exact hc) ih

variable {S D : Type}

/-- An exact integer is this Python number. -/
def ExPy (u : Option Int) (p : Py D) : Prop := ∀ i, u = some i → p = .int i
/-- An exact integer is this C number, of type `int64_t`. -/
def ExC (u : Option Int) (c : CVal S D) : Prop := ∀ i, u = some i → c = .i64 i ∧ Int64 i

theorem graph_exact_py (g : Graph (Py D)) : GRel ExPy (Graph.mapData asInt64 g) g := by
  unfold GRel Graph.mapData
  rw [List.forall₂_map_left_iff, List.forall₂_same]
  refine fun n _ => ⟨rfl, rfl, rfl, rfl, rfl, ?_⟩
  cases n.val with
  | none => exact .none
  | some l =>
    refine .some ?_
    rw [List.forall₂_map_left_iff, List.forall₂_same]
    intro v _ i hi
    cases v with
    | int k => simp only [asInt64] at hi; split at hi <;> cases hi; rfl
    | flt x => cases hi

theorem graph_exact_c {g1 : Graph (Py D)} {g2 : Graph (CVal S D)} (h : GRel SameC g1 g2) : GRel ExC (Graph.mapData asInt64 g1) g2 := by
  unfold GRel Graph.mapData
  rw [List.forall₂_map_left_iff]
  refine h.imp fun n1 n2 hn => ⟨hn.dtype, hn.shape, hn.strides, hn.offset, hn.ctx, ?_⟩
  have := hn.val
  dsimp only
  generalize n1.val = x1, n2.val = x2 at this
  cases this with
  | none => exact .none
  | some hl =>
    refine .some ?_
    rw [List.forall₂_map_left_iff]
    refine hl.imp fun v c hvc i hi => ?_
    cases hvc with
    | int hk => simp only [asInt64, if_pos hk] at hi; cases hi; exact ⟨rfl, hk⟩
    | flt => cases hi

theorem exact_un {op : Ops} {a : Option Int} {i : Int} (h : exact64.un op a = some i) : op = .Neg ∧ ∃ k, a = some k ∧ i = -k ∧ Int64 i := by
  simp only [exact64] at h
  split at h
  · split at h
    · rename_i hk; cases h; exact ⟨rfl, _, rfl, rfl, hk⟩
    · cases h
  · cases h

theorem exact_bin {op : Ops} {a b : Option Int} {i : Int} (h : exact64.bin op a b = some i) :
    ∃ j k, a = some j ∧ b = some k ∧ Int64 i ∧ (op = .Add ∧ i = j + k ∨ op = .Sub ∧ i = j - k ∨ op = .Mul ∧ i = j * k) := by
  simp only [exact64] at h
  split at h
  · split at h
    · rename_i hk; cases h; exact ⟨_, _, rfl, rfl, hk, .inl ⟨rfl, rfl⟩⟩
    · cases h
  · split at h
    · rename_i hk; cases h; exact ⟨_, _, rfl, rfl, hk, .inr (.inl ⟨rfl, rfl⟩)⟩
    · cases h
  · split at h
    · rename_i hk; cases h; exact ⟨_, _, rfl, rfl, hk, .inr (.inr ⟨rfl, rfl⟩)⟩
    · cases h
  · cases h

theorem exact_py (O : Floats D) (j : Py D) : Respects ExPy exact64 (scalarOf .python (pyNum O) .int64 j) where
  zero i h := by cases h; rfl
  un op a p hp i hi := by
    obtain ⟨rfl, k, rfl, rfl, _⟩ := exact_un hi
    rw [hp k rfl]; rfl
  bin op a p b q hp hq i hi := by
    obtain ⟨j, k, rfl, rfl, _, h⟩ := exact_bin hi
    rw [hp j rfl, hq k rfl]
    rcases h with ⟨rfl, rfl⟩ | ⟨rfl, rfl⟩ | ⟨rfl, rfl⟩ <;> rfl

theorem in64_pos {i : Int} (h : Int64 i) : (CVal.in64 i : Option (CVal S D)) = some (.i64 i) := if_pos h

theorem c_elem64 {L : Lang} (hL : L ≠ .python) (ov : Bool) (O : CFloats S D) {i : Int} (h : Int64 i) : convert (cNum ov O) (elemType L .int64) (.i64 i) = some (.i64 i) := by
  unfold elemType
  rw [if_neg hL]
  exact in64_pos h

theorem exact_c (O : CFloats S D) (ov : Bool) {L : Lang} (hL : L ≠ .python) (j : CVal S D) : Respects ExC exact64 (scalarOf L (cNum ov O) .int64 j) where
  zero i h := by
    cases h
    refine ⟨?_, by decide⟩
    unfold scalarOf elemType
    simp only [if_neg hL]
    rfl
  un op a p hp i hi := by
    obtain ⟨rfl, k, rfl, rfl, h⟩ := exact_un hi
    rw [(hp k rfl).1]
    refine ⟨?_, h⟩
    simp only [scalarOf, unVal, if_true]
    have : (cNum ov O).neg (.i64 k) = some (.i64 (-k)) := in64_pos h
    rw [this, Option.bind_some, c_elem64 hL ov O h]; rfl
  bin op a p b q hp hq i hi := by
    obtain ⟨j, k, rfl, rfl, h, hop⟩ := exact_bin hi
    rw [(hp j rfl).1, (hq k rfl).1]
    refine ⟨?_, h⟩
    have : binVal L (cNum ov O) op (.i64 j) (.i64 k) = some (.i64 i) := by
      rcases hop with ⟨rfl, rfl⟩ | ⟨rfl, rfl⟩ | ⟨rfl, rfl⟩ <;> cases L <;> first | exact absurd rfl hL | exact in64_pos h
    simp only [scalarOf]
    rw [this, Option.bind_some, c_elem64 hL ov O h]; rfl

theorem sameC_constants (O : CFloats S D) (ov : Bool) {L : Lang} (hL : L ≠ .python) (j1 : Py D) (j2 : CVal S D) :
    SameConstants SameC (scalarOf .python (pyNum O.double) .int64 j1) (scalarOf L (cNum ov O) .int64 j2) := by
  have key : ∀ i : Int, 0 ≤ i → i < 3 → SameNumber SameC (scalarOf .python (pyNum O.double) .int64 j1) (scalarOf L (cNum ov O) .int64 j2)
      ((scalarOf .python (pyNum O.double) .int64 j1).host i) ((scalarOf L (cNum ov O) .int64 j2).host i) := by
    intro i h0 h3
    have hi : i = 0 ∨ i = 1 ∨ i = 2 := by omega
    have e1 : (scalarOf .python (pyNum O.double) .int64 j1).host i = .int i := by rcases hi with rfl | rfl | rfl <;> rfl
    have e2 : (scalarOf L (cNum ov O) .int64 j2).host i = .i64 i := by
      rcases hi with rfl | rfl | rfl <;> (simp only [scalarOf, elemType, if_neg hL]; rfl)
    rw [e1, e2]
    exact ⟨.int ⟨by omega, by omega⟩, rfl⟩
  refine ⟨key 0 (by omega) (by omega), key 1 (by omega) (by omega), key 2 (by omega) (by omega), ?_⟩
  have e2 : (scalarOf L (cNum ov O) .int64 j2).fone = .f64 (O.double.dec 1 0) := by simp only [scalarOf, elemType, if_neg hL]; rfl
  rw [e2]
  exact ⟨.flt, rfl⟩

/-- A program that runs without exception in both sessions. -/
theorem both_run {b1 : Backend V1} {b2 : Backend V2} (hb1 : Faithful b1) (hb2 : Faithful b2) : ∀ (cs : List (Call (V1 × V2))) {w1 w1' : World V1} {w2 w2' : World V2}, Both R b1 b2 w1 w2 →
    (∀ c ∈ cs, SameCall R b1.A b2.A c) → runL b1 w1 (cs.map (Call.map Prod.fst)) = some w1' → runL b2 w2 (cs.map (Call.map Prod.snd)) = some w2' → Both R b1 b2 w1' w2'
  | [], _, _, _, _, h, _, h1, h2 => by cases h1; cases h2; exact h
  | c :: cs, w1, w1', w2, w2', h, hc, h1, h2 => by
    have key : ∀ {V : Type} {b : Backend V} (_ : Faithful b) {w w' : World V} (_ : Reachable b w) {c : Call V} {cs : List (Call V)}, runL b w (c :: cs) = some w' →
        ∃ v, Legal b w c ∧ next b w c = some v ∧ runL b v cs = some w' := by
      intro V b hb w w' hr c cs h
      unfold runL at h
      cases hs : step b w c with
      | error e => rw [hs] at h; cases h
      | ok p =>
        obtain ⟨o, w1⟩ := p
        rw [hs] at h
        simp only at h
        split at h
        case isFalse => cases h
        rename_i ha
        have ha' : ArgsOK b w c := argsOKb_sound (by
          unfold step at hs
          split at hs
          · rename_i hin; exact hin
          · cases hs) (hr.inv hb).winv.wf ha
        exact ⟨w1, .inr ha', by unfold next; rw [hs], h⟩
    obtain ⟨v1, l1, n1, r1⟩ := key hb1 h.reachable.1 h1
    obtain ⟨v2, l2, n2, r2⟩ := key hb2 h.reachable.2 h2
    exact both_run hb1 hb2 cs (.call h (hc c List.mem_cons_self) l1 n1 l2 n2) (fun c hm => hc c (List.mem_cons_of_mem _ hm)) r1 r2

theorem bothOn {b1 : Backend V1} {b2 : Backend V2} (hb1 : Faithful b1) (hb2 : Faithful b2) {cs : List (Call (V1 × V2))} (hc : ∀ c ∈ cs, SameCall R b1.A b2.A c)
    (h1 : Demo.runsOn b1 (cs.map (Call.map Prod.fst)) = true) (h2 : Demo.runsOn b2 (cs.map (Call.map Prod.snd)) = true) :
    Both R b1 b2 (Demo.afterOn b1 (cs.map (Call.map Prod.fst))) (Demo.afterOn b2 (cs.map (Call.map Prod.snd))) := by
  unfold Demo.runsOn at h1 h2
  obtain ⟨w1, e1⟩ := Option.isSome_iff_exists.1 h1
  obtain ⟨w2, e2⟩ := Option.isSome_iff_exists.1 h2
  unfold Demo.afterOn
  rw [e1, e2]
  exact both_run hb1 hb2 cs .init hc e1 e2

end Whale
