import Verif.Proofs.EmbedC
/-
`convert` on a graph and on a graph that contains it: corresponding kernels.
-/
namespace Whale
open Algo
variable {V : Type} {ρ : Nat → Nat} {g1 g2 : Graph V}

/-- If the first succeeds, so does the second, with a corresponding result. -/
def Imp {α β : Type} (R : α → β → Prop) (p : Except Err α) (q : Except Err β) : Prop := ∀ x, p = .ok x → ∃ y, q = .ok y ∧ R x y

theorem Imp.pure {α β : Type} {R : α → β → Prop} {x : α} {y : β} (h : R x y) : Imp R (.ok x) (.ok y) := fun _ e => ⟨y, rfl, by cases e; exact h⟩
theorem Imp.error {α β : Type} {R : α → β → Prop} {e : Err} {q : Except Err β} : Imp R (.error e) q := fun _ h => by cases h
theorem Imp.bind {α β γ δ : Type} {R : α → β → Prop} {S : γ → δ → Prop} {p : Except Err α} {q : Except Err β} {k : α → Except Err γ} {k' : β → Except Err δ}
    (h : Imp R p q) (hk : ∀ x y, R x y → Imp S (k x) (k' y)) : Imp S (p >>= k) (q >>= k') := by
  intro z hz
  cases p with
  | error e => cases hz
  | ok x =>
    obtain ⟨y, rfl, hy⟩ := h x rfl
    exact hk x y hy z hz

theorem Imp.mapM {α β γ δ : Type} {S : γ → δ → Prop} {f : α → Except Err γ} {f' : β → Except Err δ} {l : List α} {l' : List β} (h : List.Forall₂ (fun a b => Imp S (f a) (f' b)) l l') :
    Imp (List.Forall₂ S) (l.mapM f) (l'.mapM f') := by
  induction h with
  | nil => exact Imp.pure .nil
  | cons h _ ih =>
    rw [List.mapM_cons, List.mapM_cons]
    exact h.bind fun x y hxy => ih.bind fun xs ys hs => Imp.pure (.cons hxy hs)

theorem Imp.foldlM {σ τ α β : Type} {S : σ → τ → Prop} {f : σ → α → Except Err σ} {f' : τ → β → Except Err τ} {l : List α} {l' : List β} {R : α → β → Prop} (hl : List.Forall₂ R l l')
    (h : ∀ a b, R a b → ∀ s s', S s s' → Imp S (f s a) (f' s' b)) : ∀ s s', S s s' → Imp S (l.foldlM f s) (l'.foldlM f' s') := by
  induction hl with
  | nil => intro s s' hs; exact Imp.pure hs
  | cons hr _ ih =>
    intro s s' hs
    rw [List.foldlM_cons, List.foldlM_cons]
    exact (h _ _ hr _ _ hs).bind ih

theorem forall₂_map {α β γ δ : Type} {S : γ → δ → Prop} {f : α → γ} {f' : β → δ} {l : List α} {l' : List β} {R : α → β → Prop} (hl : List.Forall₂ R l l') (h : ∀ a b, R a b → S (f a) (f' b)) :
    List.Forall₂ S (l.map f) (l'.map f') := by
  induction hl with
  | nil => exact .nil
  | cons hr _ ih => exact .cons (h _ _ hr) ih

theorem forall₂_ren {α β : Type} (r : α → β) (l : List α) : List.Forall₂ (fun x y => y = r x) l (l.map r) := by
  induction l with
  | nil => exact .nil
  | cons a l ih => exact .cons rfl ih

theorem forall₂_same {α : Type} (l : List α) : List.Forall₂ (fun x y => y = x) l l := by
  induction l with
  | nil => exact .nil
  | cons a l ih => exact .cons rfl ih

theorem eq_of_forall₂ {α β : Type} {r : α → β} {l : List α} {l' : List β} (h : List.Forall₂ (fun x y => y = r x) l l') : l' = l.map r := by
  induction h with
  | nil => rfl
  | cons h _ ih => rw [h, ih]; rfl

/-- The results correspond by the function `r`. -/
abbrev Fwd {α β : Type} (r : α → β) (p : Except Err α) (q : Except Err β) : Prop := Imp (fun x y => y = r x) p q

theorem Fwd.mapM {α β γ δ : Type} {r : γ → δ} {f : α → Except Err γ} {f' : β → Except Err δ} {l : List α} {l' : List β} {ra : α → β} (hl : l' = l.map ra) (h : ∀ a, Fwd r (f a) (f' (ra a))) :
    Fwd (List.map r) (l.mapM f) (l'.mapM f') := by
  subst hl
  intro x hx
  obtain ⟨y, hy, h2⟩ := Imp.mapM (S := fun x y => y = r x) (f := f) (f' := f') (l := l) (l' := l.map ra) (by
    have := forall₂_map (f := _root_.id) (f' := _root_.id) (S := fun a b => Fwd r (f a) (f' b)) (forall₂_ren ra l) (fun a b e => by cases e; exact h a)
    simpa using this) x hx
  exact ⟨y, hy, eq_of_forall₂ h2⟩

def LoopIndex.ren (ρ : Nat → Nat) (l : LoopIndex) : LoopIndex := { l with owner := ρ l.owner }
def IExpr.ren (ρ : Nat → Nat) : IExpr → IExpr
  | .index l => .index (l.ren ρ)
  | .const c => .const c
  | .bin op l r => .bin op (l.ren ρ) (r.ren ρ)
def DExpr.ren (ρ : Nat → Nat) : DExpr → DExpr
  | .const c => .const c
  | .un op e => .un op (e.ren ρ)
  | .bin op l r => .bin op (l.ren ρ) (r.ren ρ)
  | .tern op c t f => .tern op (c.ren ρ) (t.ren ρ) (f.ren ρ)
  | .red op e reduced => .red op (e.ren ρ) (reduced.map (LoopIndex.ren ρ))
  | .func f idx => .func (ρ f) (idx.map (IExpr.ren ρ))
  | .buf n idx => .buf (ρ n) (idx.map (IExpr.ren ρ))
def Func.ren (ρ : Nat → Nat) (F : Func) : Func := { F with outLoops := F.outLoops.map (LoopIndex.ren ρ), expr := F.expr.ren ρ, outBuffer := ρ F.outBuffer }

theorem LoopIndex.ren_inj (hm : StrictMono ρ) {l l' : LoopIndex} : l.ren ρ = l'.ren ρ ↔ l = l' := by
  constructor
  · intro h
    cases l; cases l'
    simp only [LoopIndex.ren, LoopIndex.mk.injEq] at h
    simp only [LoopIndex.mk.injEq]
    exact ⟨hm.injective h.1, h.2⟩
  · rintro rfl; rfl

/-- Corresponding tables. -/
def TEmb (ρ : Nat → Nat) (t1 t2 : Tbl) : Prop := ∀ i, t2 (ρ i) = (t1 i).map (Func.ren ρ)
def REmb (ρ : Nat → Nat) (r1 r2 : RC) : Prop := ∀ i, r2 (ρ i) = r1 i

theorem TEmb.set (hm : StrictMono ρ) {t1 t2 : Tbl} (h : TEmb ρ t1 t2) (i : Nat) (F : Func) : TEmb ρ (t1.set i F) (t2.set (ρ i) (F.ren ρ)) := by
  intro j
  unfold Tbl.set
  by_cases e : j = i
  · subst e; rw [if_pos rfl, if_pos rfl]; rfl
  · rw [if_neg e, if_neg (fun e' => e (hm.injective e'))]; exact h j

theorem pyGet_fwd {α β : Type} (r : α → β) (l : List α) (k : Int) : Fwd r (pyGet l k) (pyGet (l.map r) k) := by
  unfold pyGet
  rw [List.length_map]
  cases pyPos l.length k with
  | none => exact Imp.error
  | some p =>
    simp only
    rw [List.getElem?_map]
    cases l[p]? with
    | none => exact Imp.error
    | some v => exact Imp.pure rfl

theorem outLoops_emb (h : GEmb ρ g1 g2) (a : Nat) : outLoops g2 (ρ a) = (outLoops g1 a).map (LoopIndex.ren ρ) := by
  unfold outLoops
  rw [h.shape, List.map_map]
  rfl

theorem loopIdx_ren (ls : List LoopIndex) : loopIdx (ls.map (LoopIndex.ren ρ)) = (loopIdx ls).map (IExpr.ren ρ) := by
  unfold loopIdx
  rw [List.map_map, List.map_map]; rfl

theorem transposeIdx_fwd (ls : List LoopIndex) (axes : List Nat) : Fwd (List.map (IExpr.ren ρ)) (transposeIdx ls axes) (transposeIdx (ls.map (LoopIndex.ren ρ)) axes) := by
  unfold transposeIdx
  refine Fwd.mapM (ra := _root_.id) (by simp) fun k => ?_
  refine Imp.bind (R := fun x y => y = x) (fun x h => ⟨x, h, rfl⟩) ?_
  rintro p _ rfl
  exact (pyGet_fwd (LoopIndex.ren ρ) ls _).bind fun l _ e => by subst e; exact Imp.pure rfl

theorem pyGet_same {α : Type} (l : List α) (k : Int) : Fwd _root_.id (pyGet l k) (pyGet l k) := fun x h => ⟨x, h, rfl⟩

theorem broadcastIdx_fwd (ls : List LoopIndex) (s t : List Int) : Fwd (List.map (IExpr.ren ρ)) (broadcastIdx ls s t) (broadcastIdx (ls.map (LoopIndex.ren ρ)) s t) := by
  unfold broadcastIdx
  refine Fwd.mapM (ra := _root_.id) (by simp) fun k => ?_
  refine (pyGet_same _ _).bind ?_
  rintro p _ rfl
  simp only [_root_.id]
  split
  · exact Imp.pure rfl
  · exact (pyGet_fwd (LoopIndex.ren ρ) ls _).bind fun l _ e => by subst e; exact Imp.pure rfl

theorem sliceIdxE_fwd : ∀ (subs : List Sub) (ls : List LoopIndex), Fwd (List.map (IExpr.ren ρ)) (sliceIdxE ls subs) (sliceIdxE (ls.map (LoopIndex.ren ρ)) subs)
  | [], ls => by simp only [sliceIdxE]; exact Imp.pure rfl
  | .int s :: r, ls => by
    simp only [sliceIdxE]
    exact (sliceIdxE_fwd r ls).bind fun x _ e => by subst e; exact Imp.pure rfl
  | .slice a b c :: r, [] => by simp only [sliceIdxE]; exact Imp.error
  | .slice a b c :: r, l :: ls => by
    simp only [sliceIdxE, List.map_cons]
    refine (sliceIdxE_fwd r ls).bind fun x _ e => ?_
    subst e
    refine Imp.pure ?_
    split <;> [skip; split <;> [skip; split]] <;> rfl

theorem foldlAdd_ren : ∀ (xs : List IExpr) (x : IExpr), (xs.map (IExpr.ren ρ)).foldl (fun x y => IExpr.bin .Add x y) (x.ren ρ) = (xs.foldl (fun x y => .bin .Add x y) x).ren ρ
  | [], _ => rfl
  | y :: xs, x => by rw [List.map_cons, List.foldl_cons, List.foldl_cons]; exact foldlAdd_ren xs (.bin .Add x y)

theorem reduceAdd_fwd (l : List IExpr) : Fwd (IExpr.ren ρ) (reduceAdd l) (reduceAdd (l.map (IExpr.ren ρ))) := by
  cases l with
  | nil => exact Imp.error
  | cons x xs => exact Imp.pure (foldlAdd_ren xs x)

theorem unflatten_ren : ∀ (s : List Int) (e : IExpr), unflatten s (e.ren ρ) = (unflatten s e).map (IExpr.ren ρ)
  | [], _ => rfl
  | [_], _ => rfl
  | s :: s' :: rest, e => by
    simp only [unflatten, List.map_cons]
    refine congrArg₂ _ rfl ?_
    exact unflatten_ren (s' :: rest) (.bin .Mod e (.const s))

theorem reshapeIdx_fwd (ls : List LoopIndex) (s t : List Int) : Fwd (List.map (IExpr.ren ρ)) (reshapeIdx ls s t) (reshapeIdx (ls.map (LoopIndex.ren ρ)) s t) := by
  unfold reshapeIdx
  refine Imp.bind (R := fun x y => y = IExpr.ren ρ x) ?_ fun x _ e => by subst e; exact Imp.pure (unflatten_ren _ _)
  have : List.zipWith (fun l s => IExpr.bin .Mul (.index l) (.const s)) (ls.map (LoopIndex.ren ρ)) (stridesFromShape s)
      = (List.zipWith (fun l s => IExpr.bin .Mul (.index l) (.const s)) ls (stridesFromShape s)).map (IExpr.ren ρ) := by
    rw [List.zipWith_map_left, List.map_zipWith]; rfl
  rw [this]
  exact reduceAdd_fwd _

def renP (ρ : Nat → Nat) (p : Nat × LoopIndex) : Nat × LoopIndex := (p.1, p.2.ren ρ)

theorem reducedDict_ren (a : Nat) (s : List Int) (ax : List Nat) : reducedDict (ρ a) s ax = (reducedDict a s ax).map (renP ρ) := by
  unfold reducedDict
  have : ∀ (l : List (Nat × Nat)) (d : List (Nat × LoopIndex)), l.foldl (fun d p =>
    let l : LoopIndex := { owner := ρ a, red := true, pos := p.2, extent := geti s p.1 }
    if d.any (fun q => q.1 == p.1) then d.map (fun q => if q.1 == p.1 then (q.1, l) else q) else d ++ [(p.1, l)]) (d.map (renP ρ))
    = (l.foldl (fun d p =>
    let l : LoopIndex := { owner := a, red := true, pos := p.2, extent := geti s p.1 }
    if d.any (fun q => q.1 == p.1) then d.map (fun q => if q.1 == p.1 then (q.1, l) else q) else d ++ [(p.1, l)]) d).map (renP ρ) := by
    intro l
    induction l with
    | nil => intro d; rfl
    | cons p l ih =>
      intro d
      rw [List.foldl_cons, List.foldl_cons, ← ih]
      congr 1
      simp only [List.any_map, Function.comp_def, renP]
      split
      · simp only [List.map_map]
        refine List.map_congr_left fun q _ => ?_
        by_cases e : (q.1 == p.1) = true
        · have e' : ((renP ρ q).1 == p.1) = true := e
          simp only [Function.comp, if_pos e, if_pos e']; rfl
        · have e' : ¬ ((renP ρ q).1 == p.1) = true := e
          simp only [Function.comp, if_neg e, if_neg e']
      · rw [List.map_append]; rfl
  exact this _ []

theorem lookup_renP (d : List (Nat × LoopIndex)) (k : Nat) : (d.map (renP ρ)).lookup k = (d.lookup k).map (LoopIndex.ren ρ) := by
  induction d with
  | nil => rfl
  | cons p d ih =>
    rw [List.map_cons, List.lookup_cons, List.lookup_cons, ih]
    simp only [renP]
    split <;> rfl

theorem reduceIdx_fwd (d : List (Nat × LoopIndex)) (axis : List Nat) : ∀ (dims : List Nat) (sp : List LoopIndex),
    Fwd (List.map (IExpr.ren ρ)) (reduceIdx d axis dims sp) (reduceIdx (d.map (renP ρ)) axis dims (sp.map (LoopIndex.ren ρ)))
  | [], sp => by simp only [reduceIdx]; exact Imp.pure rfl
  | dim :: dims, sp => by
    simp only [reduceIdx]
    split
    · rw [lookup_renP]
      cases d.lookup dim with
      | none => exact Imp.error
      | some l => exact (reduceIdx_fwd d axis dims sp).bind fun x _ e => by subst e; exact Imp.pure rfl
    · cases sp with
      | nil => exact Imp.error
      | cons l sp => exact (reduceIdx_fwd d axis dims sp).bind fun x _ e => by subst e; exact Imp.pure rfl

theorem zipIdx_ren {α β : Type} (r : α → β) (l : List α) : (l.map r).zipIdx = l.zipIdx.map fun p => (r p.1, p.2) := by
  rw [List.zipIdx_map]; rfl

theorem reduceExpr_fwd (h : GEmb ρ g1 g2) (a x : Nat) (axis : List Nat) (kd : Bool) (ls : List LoopIndex) :
    Fwd (DExpr.ren ρ) (reduceExpr g1 a x axis kd ls) (reduceExpr g2 (ρ a) (ρ x) axis kd (ls.map (LoopIndex.ren ρ))) := by
  unfold reduceExpr
  rw [h.shape, h.ndim, reducedDict_ren]
  have e : (if kd = true then List.map (fun x => x.1) (List.filter (fun p => decide (p.2 ∉ axis)) (ls.map (LoopIndex.ren ρ)).zipIdx) else ls.map (LoopIndex.ren ρ))
      = (if kd = true then List.map (fun x => x.1) (List.filter (fun p => decide (p.2 ∉ axis)) ls.zipIdx) else ls).map (LoopIndex.ren ρ) := by
    split
    · rw [zipIdx_ren, List.filter_map, List.map_map, List.map_map]; rfl
    · rfl
  simp only [e]
  refine (reduceIdx_fwd _ _ _ _).bind fun y _ e => ?_
  subst e
  refine Imp.pure ?_
  simp only [DExpr.ren, List.map_map]
  rfl

theorem padExpr_fwd (h : GEmb ρ g1 g2) (x : Nat) (d b : Int) (ls : List LoopIndex) : Fwd (DExpr.ren ρ) (padExpr g1 x d b ls) (padExpr g2 (ρ x) d b (ls.map (LoopIndex.ren ρ))) := by
  unfold padExpr
  rw [h.shape]
  refine (pyGet_fwd (LoopIndex.ren ρ) ls d).bind fun l _ e => ?_
  subst e
  refine (pyGet_same _ _).bind fun n _ e => ?_
  subst e
  refine Imp.pure ?_
  simp only [DExpr.ren, IExpr.ren, zipIdx_ren, List.map_map, DExpr.tern.injEq, DExpr.func.injEq, true_and, and_true]
  refine List.map_congr_left fun p _ => ?_
  simp only [Function.comp]
  split <;> rfl

theorem dilateExpr_fwd (x : Nat) (d b : Int) (ls : List LoopIndex) : Fwd (DExpr.ren ρ) (dilateExpr x d b ls) (dilateExpr (ρ x) d b (ls.map (LoopIndex.ren ρ))) := by
  unfold dilateExpr
  refine (pyGet_fwd (LoopIndex.ren ρ) ls d).bind fun l _ e => ?_
  subst e
  refine Imp.pure ?_
  simp only [DExpr.ren, IExpr.ren, zipIdx_ren, List.map_map, DExpr.tern.injEq, DExpr.func.injEq, true_and, and_true]
  refine List.map_congr_left fun p _ => ?_
  simp only [Function.comp]
  split <;> rfl

theorem mkExpr_fwd (h : GEmb ρ g1 g2) (a : Nat) : Fwd (DExpr.ren ρ) (mkExpr g1 a) (mkExpr g2 (ρ a)) := by
  unfold mkExpr
  rw [h.ctx, outLoops_emb h]
  cases g1.ctx a <;> simp only [Ctx.ren, h.shape, loopIdx_ren]
  case const => exact Imp.pure rfl
  case unary => exact Imp.pure rfl
  case binary => exact Imp.pure rfl
  case contiguous => exact Imp.pure rfl
  case transpose x s => exact (transposeIdx_fwd _ _).bind fun y _ e => by subst e; exact Imp.pure rfl
  case broadcast x s => exact (broadcastIdx_fwd _ _ _).bind fun y _ e => by subst e; exact Imp.pure rfl
  case slice x s => exact (sliceIdxE_fwd _ _).bind fun y _ e => by subst e; exact Imp.pure rfl
  case reshape x s => exact (reshapeIdx_fwd _ _ _).bind fun y _ e => by subst e; exact Imp.pure rfl
  case sum => exact reduceExpr_fwd h _ _ _ _ _
  case pad => exact padExpr_fwd h _ _ _ _
  case dilate => exact dilateExpr_fwd _ _ _ _

theorem mkFunc_emb (h : GEmb ρ g1 g2) (a : Nat) (e : DExpr) : mkFunc g2 (ρ a) (e.ren ρ) = (mkFunc g1 a e).ren ρ := by
  unfold mkFunc
  rw [outLoops_emb h, h.shape, h.dtype]; rfl

theorem arrToFunc_emb (h : GEmb ρ g1 g2) : ∀ (n m a : Nat) (t1 t2 : Tbl), n ≤ m → TEmb ρ t1 t2 → Imp (TEmb ρ) (arrToFunc g1 n a t1) (arrToFunc g2 m (ρ a) t2) := by
  intro n
  induction n with
  | zero => intro m a t1 t2 _ _; exact Imp.error
  | succ n ih =>
    intro m a t1 t2 hm ht
    obtain ⟨m, rfl⟩ : ∃ k, m = k + 1 := ⟨m - 1, by omega⟩
    simp only [arrToFunc]
    rw [ht a]
    cases t1 a with
    | some F => exact Imp.pure ht
    | none =>
      simp only [Option.map_none]
      rw [h.ctx, Ctx.ren_inputs]
      refine Imp.bind (Imp.foldlM (forall₂_ren ρ _) (fun x _ e s s' hs => by subst e; exact ih m x s s' (by omega) hs) _ _ ht) fun s s' hs => ?_
      refine (mkExpr_fwd h a).bind fun e _ he => ?_
      subst he
      refine Imp.pure ?_
      rw [mkFunc_emb h]
      exact hs.set h.mono a _

theorem hasReduce_ren (e : DExpr) : hasReduce (e.ren ρ) = hasReduce e := by
  induction e with
  | un _ _ ih => exact ih
  | bin _ _ _ h1 h2 => simp only [DExpr.ren, hasReduce, h1, h2]
  | tern _ _ _ _ h1 h2 => simp only [DExpr.ren, hasReduce, h1, h2]
  | _ => rfl

theorem isBufferExpr_ren (e : DExpr) : isBufferExpr (e.ren ρ) = isBufferExpr e := by cases e <;> rfl

/-- Corresponding replacements. -/
def renR (ρ : Nat → Nat) (p : LoopIndex × IExpr) : LoopIndex × IExpr := (p.1.ren ρ, p.2.ren ρ)

theorem lookup_renR (hm : StrictMono ρ) (d : Repl) (k : LoopIndex) : (d.map (renR ρ)).lookup (k.ren ρ) = (d.lookup k).map (IExpr.ren ρ) := by
  induction d with
  | nil => rfl
  | cons p d ih =>
    rw [List.map_cons, List.lookup_cons, List.lookup_cons, ih]
    simp only [renR]
    by_cases e : k = p.1
    · subst e; simp
    · rw [beq_false_of_ne e, beq_false_of_ne (fun e' => e ((LoopIndex.ren_inj hm).1 e'))]

theorem replaceI_fwd (hm : StrictMono ρ) (d : Repl) : ∀ e : IExpr, Fwd (IExpr.ren ρ) (replaceI d e) (replaceI (d.map (renR ρ)) (e.ren ρ)) := by
  intro e
  induction e with
  | index l =>
    simp only [replaceI, IExpr.ren]
    rw [lookup_renR hm]
    cases d.lookup l with
    | none => exact Imp.error
    | some e => exact Imp.pure rfl
  | const c => exact Imp.pure rfl
  | bin op l r hl hr =>
    simp only [replaceI, IExpr.ren]
    exact hl.bind fun x _ e => by subst e; exact hr.bind fun y _ e => by subst e; exact Imp.pure rfl

theorem replaceD_fwd (hm : StrictMono ρ) (d : Repl) : ∀ e : DExpr, Fwd (DExpr.ren ρ) (replaceD d e) (replaceD (d.map (renR ρ)) (e.ren ρ)) := by
  intro e
  induction e with
  | const c => exact Imp.pure rfl
  | un op e h => exact h.bind fun x _ e => by subst e; exact Imp.pure rfl
  | bin op l r hl hr => exact hl.bind fun x _ e => by subst e; exact hr.bind fun y _ e => by subst e; exact Imp.pure rfl
  | tern op c t f ht hf =>
    exact (replaceI_fwd hm d c).bind fun x _ e => by subst e; exact ht.bind fun y _ e => by subst e; exact hf.bind fun y _ e => by subst e; exact Imp.pure rfl
  | red op e rd h => exact h.bind fun x _ e => by subst e; exact Imp.pure rfl
  | func f idx => exact (Fwd.mapM rfl (replaceI_fwd hm d)).bind fun x _ e => by subst e; exact Imp.pure rfl
  | buf f idx => exact (Fwd.mapM rfl (replaceI_fwd hm d)).bind fun x _ e => by subst e; exact Imp.pure rfl

theorem countE_emb (hm : StrictMono ρ) {v1 v2 : Nat → RC → Except Err RC} (hv : ∀ f r1 r2, REmb ρ r1 r2 → Imp (REmb ρ) (v1 f r1) (v2 (ρ f) r2)) :
    ∀ (e : DExpr) (r1 r2 : RC), REmb ρ r1 r2 → Imp (REmb ρ) (countE v1 e r1) (countE v2 (e.ren ρ) r2) := by
  intro e
  induction e with
  | const c => intro r1 r2 h; exact Imp.pure h
  | un op e ih => exact ih
  | bin op l r hl hr => intro r1 r2 h; exact (hl _ _ h).bind hr
  | tern op c t f ht hf => intro r1 r2 h; exact (ht _ _ h).bind hf
  | red op e rd ih => exact ih
  | buf f idx => intro r1 r2 h; exact Imp.pure h
  | func f idx =>
    intro r1 r2 h
    simp only [countE, DExpr.ren]
    have h' : REmb ρ (fun x => if x = f then r1 x + 1 else r1 x) (fun x => if x = ρ f then r2 x + 1 else r2 x) := by
      intro i
      simp only [hm.injective.eq_iff, h i]
    simp only [if_true, h f]
    split
    · exact hv _ _ _ h'
    · exact Imp.pure h'

theorem countRefs_emb (hm : StrictMono ρ) {t1 t2 : Tbl} (ht : TEmb ρ t1 t2) : ∀ (n m : Nat) (e : DExpr) (r1 r2 : RC), n ≤ m → REmb ρ r1 r2 → Imp (REmb ρ) (countRefs t1 n e r1) (countRefs t2 m (e.ren ρ) r2) := by
  intro n
  induction n with
  | zero => intro m e r1 r2 _ _; exact Imp.error
  | succ n ih =>
    intro m e r1 r2 hn h
    obtain ⟨m, rfl⟩ : ∃ k, m = k + 1 := ⟨m - 1, by omega⟩
    simp only [countRefs]
    refine countE_emb hm (fun f r1 r2 h => ?_) e r1 r2 h
    rw [ht f]
    cases t1 f with
    | none => exact Imp.error
    | some F => exact ih m F.expr _ _ (by omega) h

/-- Corresponding results of the fusion pass. -/
def FEmb (ρ : Nat → Nat) (p q : DExpr × Tbl) : Prop := q.1 = p.1.ren ρ ∧ TEmb ρ p.2 q.2

theorem fuseE_emb {v1 v2 : Nat → List IExpr → Tbl → Except Err (DExpr × Tbl)} (hv : ∀ f idx t1 t2, TEmb ρ t1 t2 → Imp (FEmb ρ) (v1 f idx t1) (v2 (ρ f) (idx.map (IExpr.ren ρ)) t2)) :
    ∀ (e : DExpr) (t1 t2 : Tbl), TEmb ρ t1 t2 → Imp (FEmb ρ) (fuseE v1 e t1) (fuseE v2 (e.ren ρ) t2) := by
  intro e
  induction e with
  | const c => intro t1 t2 h; exact Imp.pure ⟨rfl, h⟩
  | buf f idx => intro t1 t2 h; exact Imp.pure ⟨rfl, h⟩
  | un op e ih =>
    intro t1 t2 h
    simp only [fuseE, DExpr.ren]
    exact (ih _ _ h).bind fun x y hxy => Imp.pure ⟨by rw [hxy.1]; rfl, hxy.2⟩
  | red op e rd ih =>
    intro t1 t2 h
    simp only [fuseE, DExpr.ren]
    exact (ih _ _ h).bind fun x y hxy => Imp.pure ⟨by rw [hxy.1]; rfl, hxy.2⟩
  | bin op l r hl hr =>
    intro t1 t2 h
    simp only [fuseE, DExpr.ren]
    exact (hl _ _ h).bind fun x y hxy => (hr _ _ hxy.2).bind fun x' y' hxy' => Imp.pure ⟨by rw [hxy.1, hxy'.1]; rfl, hxy'.2⟩
  | tern op c l r hl hr =>
    intro t1 t2 h
    simp only [fuseE, DExpr.ren]
    exact (hl _ _ h).bind fun x y hxy => (hr _ _ hxy.2).bind fun x' y' hxy' => Imp.pure ⟨by rw [hxy.1, hxy'.1]; rfl, hxy'.2⟩
  | func f idx => intro t1 t2 h; exact hv f idx t1 t2 h

theorem tryFuse_emb (hm : StrictMono ρ) {r1 r2 : RC} (hr : REmb ρ r1 r2) : ∀ (n m : Nat) (e : DExpr) (t1 t2 : Tbl), n ≤ m → TEmb ρ t1 t2 →
    Imp (FEmb ρ) (tryFuse r1 n e t1) (tryFuse r2 m (e.ren ρ) t2) := by
  intro n
  induction n with
  | zero => intro m e t1 t2 _ _; exact Imp.error
  | succ n ih =>
    intro m e t1 t2 hn h
    obtain ⟨m, rfl⟩ : ∃ k, m = k + 1 := ⟨m - 1, by omega⟩
    simp only [tryFuse]
    refine fuseE_emb (fun f idx t1 t2 h => ?_) e t1 t2 h
    rw [h f, hr f]
    cases t1 f with
    | none => exact Imp.error
    | some F =>
      simp only [Option.map_some]
      have e1 : (F.ren ρ).expr = F.expr.ren ρ := rfl
      rw [e1, isBufferExpr_ren, hasReduce_ren]
      split
      · exact Imp.error
      · split
        · refine Imp.bind (R := fun x y => y = DExpr.ren ρ x) ?_ fun x _ e => by subst e; exact ih m x _ _ (by omega) h
          have : (F.ren ρ).outLoops.zip (idx.map (IExpr.ren ρ)) = (F.outLoops.zip idx).map (renR ρ) := by
            show (F.outLoops.map (LoopIndex.ren ρ)).zip (idx.map (IExpr.ren ρ)) = _
            rw [List.zip_map]; rfl
          rw [this]
          exact replaceD_fwd hm _ _
        · exact (ih m F.expr _ _ (by omega) h).bind fun x y hxy => Imp.pure ⟨rfl, by rw [hxy.1]; exact hxy.2.set hm f { F with expr := x.1 }⟩

theorem funcRefs_ren (e : DExpr) : funcRefs (e.ren ρ) = (funcRefs e).map ρ := by
  induction e with
  | un _ _ ih => exact ih
  | red _ _ _ ih => exact ih
  | bin _ _ _ h1 h2 => simp only [DExpr.ren, funcRefs, h1, h2, List.map_append]
  | tern _ _ _ _ h1 h2 => simp only [DExpr.ren, funcRefs, h1, h2, List.map_append]
  | _ => rfl

theorem dedup_ren (hm : StrictMono ρ) (l : List Nat) : dedup (l.map ρ) = (dedup l).map ρ := by
  unfold dedup
  have : ∀ (l acc : List Nat), (l.map ρ).foldl (fun acc x => if x ∈ acc then acc else acc ++ [x]) (acc.map ρ) = (l.foldl (fun acc x => if x ∈ acc then acc else acc ++ [x]) acc).map ρ := by
    intro l
    induction l with
    | nil => intro acc; rfl
    | cons x l ih =>
      intro acc
      rw [List.map_cons, List.foldl_cons, List.foldl_cons, ← ih]
      congr 1
      simp only [List.mem_map_of_injective hm.injective]
      split
      · rfl
      · rw [List.map_append]; rfl
  exact this l []

def mapSeen (ρ : Nat → Nat) (p : List Nat × List Nat) : List Nat × List Nat := (p.1.map ρ, p.2.map ρ)

theorem topo_emb (hm : StrictMono ρ) {t1 t2 : Tbl} (ht : TEmb ρ t1 t2) : ∀ (n m f : Nat) (st : List Nat × List Nat), n ≤ m → Fwd (mapSeen ρ) (topo t1 n f st) (topo t2 m (ρ f) (mapSeen ρ st)) := by
  intro n
  induction n with
  | zero => intro m f st _; exact Imp.error
  | succ n ih =>
    rintro m f ⟨seen, funcs⟩ hn
    obtain ⟨m, rfl⟩ : ∃ k, m = k + 1 := ⟨m - 1, by omega⟩
    simp only [topo, mapSeen]
    simp only [List.mem_map_of_injective hm.injective, ht f]
    split
    · exact Imp.pure rfl
    · cases t1 f with
      | none => exact Imp.error
      | some F =>
        simp only [Option.map_some]
        have e1 : dependentFuncs (F.ren ρ).expr = (dependentFuncs F.expr).map ρ := by
          unfold dependentFuncs
          show dedup (funcRefs (F.expr.ren ρ)) = _
          rw [funcRefs_ren, dedup_ren hm]
        rw [e1]
        refine Imp.bind (R := fun x y => y = mapSeen ρ x) ?_ ?_
        · refine Imp.foldlM (forall₂_ren ρ _) (fun x _ e s s' hs => by subst e; subst hs; exact ih m x s (by omega)) _ _ ?_
          simp [mapSeen]
        · rintro ⟨s, fs⟩ _ rfl
          exact Imp.pure (by simp [mapSeen])

theorem convert_emb (h : GEmb ρ g1 g2) (hw : WF g1) {a : Nat} (ha : a < g1.length) : Imp (fun p q => q.1 = p.1.map ρ ∧ TEmb ρ p.2 q.2) (convert g1 a) (convert g2 (ρ a)) := by
  have hle := h.le a
  unfold convert
  refine Imp.bind (arrToFunc_emb h (a + 2) (ρ a + 2) a Tbl.empty Tbl.empty (by omega) (fun _ => rfl)) fun t1 t2 ht => ?_
  rw [ht a]
  cases t1 a with
  | none => exact Imp.error
  | some F =>
    simp only [Option.map_some]
    refine Imp.bind (countRefs_emb h.mono ht (a + 2) (ρ a + 2) F.expr _ _ (by omega) (fun _ => rfl)) fun r1 r2 hr => ?_
    refine Imp.bind (tryFuse_emb h.mono hr (a + 2) (ρ a + 2) F.expr t1 t2 (by omega) ht) fun x y hxy => ?_
    obtain ⟨x1, x2⟩ := x
    obtain ⟨y1, y2⟩ := y
    obtain ⟨rfl, hxy⟩ := hxy
    have hT : TEmb ρ (x2.set a { outLoops := F.outLoops, outShape := F.outShape, outDtype := F.outDtype, expr := x1, outBuffer := base g1 a })
        (y2.set (ρ a) { outLoops := (F.ren ρ).outLoops, outShape := (F.ren ρ).outShape, outDtype := (F.ren ρ).outDtype, expr := x1.ren ρ, outBuffer := base g2 (ρ a) }) := by
      rw [base_emb h hw ha]
      exact TEmb.set h.mono hxy a _
    exact (topo_emb h.mono hT (a + 2) (ρ a + 2) a ([], []) (by omega)).bind fun s _ e => by subst e; exact Imp.pure ⟨rfl, hT⟩

end Whale
