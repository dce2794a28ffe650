import Verif.Proofs.SemGen
/-
C49: the integer literals and loop bounds of generated code are within the limit.
-/
namespace Whale
open Algo Codegen Sem
variable {V : Type} [Lim]

def IExpr.fit : IExpr → Prop
  | .index _ => True
  | .const c => Fit c
  | .bin _ l r => l.fit ∧ r.fit

def DExpr.fit (g : Graph V) : DExpr → Prop
  | .const _ => True
  | .un _ e => e.fit g
  | .bin _ l r => l.fit g ∧ r.fit g
  | .tern _ c t f => c.fit ∧ t.fit g ∧ f.fit g
  | .red _ e rs => e.fit g ∧ ∀ l ∈ rs, Fit l.extent
  | .func f idx => (∀ e ∈ idx, e.fit) ∧ ∀ s ∈ stridesFromShape (g.shape f), Fit s
  | .buf b idx => (∀ e ∈ idx, e.fit) ∧ Fit (g.offset b) ∧ ∀ s ∈ g.strides b, Fit s

/-- All functions of the table have literals within the limit. -/
def TblFit (g : Graph V) (t : Tbl) : Prop := ∀ i F, t i = some F → F.expr.fit g

theorem replaceI_fit {m : Repl} (hm : ∀ p ∈ m, IExpr.fit p.2) {e e' : IExpr} (h : replaceI m e = .ok e') (he : e.fit) : e'.fit := by
  induction e generalizing e' with
  | index l =>
    rw [replaceI] at h
    split at h
    · rename_i x hx
      cases h
      exact hm _ (mem_of_lookup hx)
    · cases h
  | const c => cases h; exact he
  | bin op l r ihl ihr =>
    obtain ⟨e1, h1, h⟩ := except_bind_ok h
    obtain ⟨e2, h2, h⟩ := except_bind_ok h
    cases h
    exact ⟨ihl h1 he.1, ihr h2 he.2⟩

theorem mapM_fit {m : Repl} (hm : ∀ p ∈ m, IExpr.fit p.2) : ∀ {es es' : List IExpr}, es.mapM (replaceI m) = .ok es' → (∀ e ∈ es, e.fit) → ∀ e ∈ es', e.fit
  | [], es', h, _ => by cases h; intro e he; cases he
  | e :: es, es', h, he => by
    rw [List.mapM_cons] at h
    obtain ⟨e1, h1, h⟩ := except_bind_ok h
    obtain ⟨e2, h2, h⟩ := except_bind_ok h
    cases h
    intro x hx
    rcases List.mem_cons.1 hx with rfl | hx
    · exact replaceI_fit hm h1 (he _ List.mem_cons_self)
    · exact mapM_fit hm h2 (fun y hy => he y (List.mem_cons_of_mem _ hy)) x hx

theorem replaceD_fit {g : Graph V} {m : Repl} (hm : ∀ p ∈ m, IExpr.fit p.2) {e e' : DExpr} (h : replaceD m e = .ok e') (he : e.fit g) : e'.fit g := by
  induction e generalizing e' with
  | const c => cases h; exact trivial
  | un op e ih =>
    obtain ⟨e1, h1, h⟩ := except_bind_ok h
    cases h
    have := ih h1 he
    exact this
  | bin op l r ihl ihr =>
    obtain ⟨e1, h1, h⟩ := except_bind_ok h
    obtain ⟨e2, h2, h⟩ := except_bind_ok h
    cases h
    exact ⟨ihl h1 he.1, ihr h2 he.2⟩
  | tern op c l r ihl ihr =>
    obtain ⟨e0, h0, h⟩ := except_bind_ok h
    obtain ⟨e1, h1, h⟩ := except_bind_ok h
    obtain ⟨e2, h2, h⟩ := except_bind_ok h
    cases h
    exact ⟨replaceI_fit hm h0 he.1, ihl h1 he.2.1, ihr h2 he.2.2⟩
  | red op e rs ih =>
    obtain ⟨e1, h1, h⟩ := except_bind_ok h
    cases h
    exact ⟨ih h1 he.1, he.2⟩
  | func f idx =>
    obtain ⟨e1, h1, h⟩ := except_bind_ok h
    cases h
    exact ⟨mapM_fit hm h1 he.1, he.2⟩
  | buf f idx =>
    obtain ⟨e1, h1, h⟩ := except_bind_ok h
    cases h
    exact ⟨mapM_fit hm h1 he.1, he.2⟩

theorem fuseE_fit {g : Graph V} {visit : Nat → List IExpr → Tbl → Except Err (DExpr × Tbl)}
    (hv : ∀ f idx t e' t', visit f idx t = .ok (e', t') → (DExpr.func f idx).fit g → TblFit g t → TblFit g t' ∧ e'.fit g)
    {e e' : DExpr} {t t' : Tbl} (h : fuseE visit e t = .ok (e', t')) (ht : TblFit g t) (he : e.fit g) : TblFit g t' ∧ e'.fit g := by
  induction e generalizing t e' t' with
  | const c => cases h; exact ⟨ht, he⟩
  | buf n idx => cases h; exact ⟨ht, he⟩
  | un op e ih =>
    obtain ⟨⟨e1, t1⟩, h1, h⟩ := except_bind_ok h
    cases h
    have := ih h1 ht he
    exact this
  | red op e rs ih =>
    obtain ⟨⟨e1, t1⟩, h1, h⟩ := except_bind_ok h
    cases h
    have := ih h1 ht he.1
    exact ⟨this.1, this.2, he.2⟩
  | bin op l r ihl ihr =>
    obtain ⟨⟨e1, t1⟩, h1, h⟩ := except_bind_ok h
    obtain ⟨⟨e2, t2⟩, h2, h⟩ := except_bind_ok h
    cases h
    have i1 := ihl h1 ht he.1
    have i2 := ihr h2 i1.1 he.2
    exact ⟨i2.1, i1.2, i2.2⟩
  | tern op c l r ihl ihr =>
    obtain ⟨⟨e1, t1⟩, h1, h⟩ := except_bind_ok h
    obtain ⟨⟨e2, t2⟩, h2, h⟩ := except_bind_ok h
    cases h
    have i1 := ihl h1 ht he.2.1
    have i2 := ihr h2 i1.1 he.2.2
    exact ⟨i2.1, he.1, i1.2, i2.2⟩
  | func f idx => exact hv f idx t e' t' h he ht

theorem tryFuse_fit {g : Graph V} {rc : RC} (fuel : Nat) : ∀ {e e' : DExpr} {t t' : Tbl}, tryFuse rc fuel e t = .ok (e', t') → TblFit g t → e.fit g →
    TblFit g t' ∧ e'.fit g := by
  induction fuel with
  | zero => intro e e' t t' h; cases h
  | succ fuel ih =>
    intro e e' t t' h ht he
    unfold tryFuse at h
    refine fuseE_fit ?_ h ht he
    intro f idx t e' t' h hf ht
    cases hF : t f with
    | none => simp [hF] at h
    | some F =>
      simp only [hF] at h
      have hN := ht f F hF
      split at h
      · cases h
      · split at h
        · obtain ⟨e1, h1, h⟩ := except_bind_ok h
          exact ih h ht (replaceD_fit (fun p hp => hf.1 _ (List.of_mem_zip hp).2) h1 hN)
        · obtain ⟨⟨e1, t1⟩, h1, h⟩ := except_bind_ok h
          cases h
          obtain ⟨a, b⟩ := ih h1 ht hN
          refine ⟨fun i G hG => ?_, hf⟩
          by_cases hif : i = f
          · subst hif
            rw [Tbl.set_same, Option.some.injEq] at hG
            subst hG
            exact b
          · rw [Tbl.set_ne _ _ hif] at hG
            exact a i G hG

/-! ### the expression of one array -/

omit [Lim] in
theorem prod_room {s : List Int} (h : NonNeg s) : 0 ≤ prod s ∧ prod s ≤ room s := by
  induction s with
  | nil => exact ⟨by decide, by decide⟩
  | cons d s ih =>
    rw [NonNeg.cons] at h
    have h1 := ih h.2
    have e : room (d :: s) = max (d.natAbs : Int) 1 * room s := rfl
    rw [prod_cons, e]
    exact ⟨Int.mul_nonneg h.1 h1.1, Int.mul_le_mul (by omega) h1.2 h1.1 (by omega)⟩

omit [Lim] in
theorem strides_room {s : List Int} (h : NonNeg s) : ∀ x ∈ stridesFromShape s, 0 ≤ x ∧ x ≤ room s := by
  induction s with
  | nil => intro x hx; simp at hx
  | cons d s ih =>
    rw [NonNeg.cons] at h
    rw [stridesFromShape_cons]
    have hr := room_cons d s
    intro x hx
    rcases List.mem_cons.1 hx with rfl | hx
    · have := prod_room h.2; omega
    · have := ih h.2 x hx; omega

theorem Fit.strides {s : List Int} (h : NonNeg s) (hf : Fit (room s)) : ∀ x ∈ stridesFromShape s, Fit x := fun x hx => by
  have := strides_room h x hx
  exact hf.of_le this.1 this.2

theorem Fit.dim {s : List Int} (hf : Fit (room s)) {d : Int} (h : d ∈ s) : Fit d := fun m hm => by
  have := room_mem h
  have := hf m hm
  omega

omit [Lim] in
theorem mapM_mem {α β : Type} {f : α → Except Err β} : ∀ {l : List α} {l' : List β}, l.mapM f = .ok l' → ∀ y ∈ l', ∃ x ∈ l, f x = .ok y
  | [], l', h, y, hy => by cases h; cases hy
  | a :: l, l', h, y, hy => by
    rw [List.mapM_cons] at h
    obtain ⟨b, h1, h⟩ := except_bind_ok h
    obtain ⟨bs, h2, h⟩ := except_bind_ok h
    cases h
    rcases List.mem_cons.1 hy with rfl | hy
    · exact ⟨a, List.mem_cons_self, h1⟩
    · obtain ⟨x, hx, e⟩ := mapM_mem h2 y hy
      exact ⟨x, List.mem_cons_of_mem _ hx, e⟩

theorem loopIdx_fit (ls : List LoopIndex) : ∀ e ∈ loopIdx ls, e.fit := by
  intro e he
  obtain ⟨l, _, rfl⟩ := List.mem_map.1 he
  trivial

theorem sliceIdxE_fit : ∀ {subs : List Sub} {ls : List LoopIndex} {s : List Int} {es : List IExpr}, sliceIdxE ls subs = .ok es → SubsOK s subs → Fit (room s) →
    (∀ b ∈ subs, ∀ m ∈ Lim.lim, b.step ≤ m) → ∀ e ∈ es, e.fit
  | [], ls, s, es, h, _, _, _ => by cases h; intro e he; cases he
  | .int i :: r, ls, s, es, h, hs, hf, hst => by
    cases s with
    | nil => exact hs.elim
    | cons d s =>
      obtain ⟨e1, h1, h⟩ := except_bind_ok h
      cases h
      intro e he
      rcases List.mem_cons.1 he with rfl | he
      · exact (hf.of_le hs.1.1 (by have := hs.1.2; have := room_cons d s; omega) : Fit i)
      · exact sliceIdxE_fit h1 hs.2 (hf.of_le (by have := room_ge_one s; omega) (room_cons d s).2.2) (fun b hb => hst b (List.mem_cons_of_mem _ hb)) e he
  | .slice a b c :: r, [], s, es, h, hs, hf, hst => by cases h
  | .slice a b c :: r, l :: ls, s, es, h, hs, hf, hst => by
    cases s with
    | nil => exact hs.elim
    | cons d s =>
      obtain ⟨e1, h1, h⟩ := except_bind_ok h
      cases h
      have ha : Fit a := hf.of_le hs.1.1.1 (by have := hs.1.1.2; have := room_cons d s; omega)
      have hc : Fit c := fun m hm => by
        have h1 := hst _ List.mem_cons_self m hm
        have h2 := hs.1.2.2
        have h3 : c ≤ m := h1
        omega
      intro e he
      rcases List.mem_cons.1 he with rfl | he
      · split
        · trivial
        · split
          · exact ⟨trivial, hc⟩
          · split
            · exact ⟨ha, trivial⟩
            · exact ⟨ha, trivial, hc⟩
      · exact sliceIdxE_fit h1 hs.2 (hf.of_le (by have := room_ge_one s; omega) (room_cons d s).2.2) (fun b hb => hst b (List.mem_cons_of_mem _ hb)) e he

theorem unflatten_fit : ∀ {st : List Int} {e : IExpr}, (∀ s ∈ st, Fit s) → e.fit → ∀ x ∈ unflatten st e, x.fit
  | [], e, _, _ => by intro x hx; cases hx
  | [_], e, _, he => by intro x hx; rw [unflatten] at hx; simp only [List.mem_singleton] at hx; subst hx; exact he
  | s :: s' :: r, e, hs, he => by
    intro x hx
    rw [unflatten] at hx
    rcases List.mem_cons.1 hx with rfl | hx
    · exact ⟨he, hs s List.mem_cons_self⟩
    · exact unflatten_fit (fun y hy => hs y (List.mem_cons_of_mem _ hy)) (show IExpr.fit (.bin .Mod e (.const s)) from ⟨he, hs s List.mem_cons_self⟩) x hx

theorem reduceAdd_fit {es : List IExpr} {e : IExpr} (h : reduceAdd es = .ok e) (hs : ∀ x ∈ es, x.fit) : e.fit := by
  cases es with
  | nil => cases h
  | cons x xs =>
    cases h
    have : ∀ (xs : List IExpr) (x : IExpr), x.fit → (∀ y ∈ xs, IExpr.fit y) → (xs.foldl (fun x y => IExpr.bin .Add x y) x).fit := by
      intro xs
      induction xs with
      | nil => intro x hx _; exact hx
      | cons y ys ih => intro x hx hy; exact ih _ ⟨hx, hy y List.mem_cons_self⟩ (fun z hz => hy z (List.mem_cons_of_mem _ hz))
    exact this xs x (hs x List.mem_cons_self) (fun y hy => hs y (List.mem_cons_of_mem _ hy))

theorem reshapeIdx_fit {ls : List LoopIndex} {s s' : List Int} {es : List IExpr} (h : reshapeIdx ls s s' = .ok es) (h1 : ∀ x ∈ stridesFromShape s, Fit x)
    (h2 : ∀ x ∈ stridesFromShape s', Fit x) : ∀ e ∈ es, e.fit := by
  obtain ⟨e1, e, h⟩ := except_bind_ok h
  cases h
  refine unflatten_fit h2 (reduceAdd_fit e ?_)
  intro x hx
  rw [← List.map_uncurry_zip_eq_zipWith] at hx
  obtain ⟨p, hp, rfl⟩ := List.mem_map.1 hx
  exact ⟨trivial, h1 _ (List.of_mem_zip hp).2⟩

theorem reduceIdx_fit {rd : List (Nat × LoopIndex)} {axis : List Nat} : ∀ {dims : List Nat} {sp : List LoopIndex} {es : List IExpr}, reduceIdx rd axis dims sp = .ok es → ∀ e ∈ es, e.fit
  | [], sp, es, h => by cases h; intro e he; cases he
  | d :: dims, sp, es, h => by
    unfold reduceIdx at h
    split at h
    · split at h
      · obtain ⟨e1, h1, h⟩ := except_bind_ok h
        cases h
        intro e he
        rcases List.mem_cons.1 he with rfl | he
        · trivial
        · exact reduceIdx_fit h1 e he
      · cases h
    · cases sp with
      | nil => cases h
      | cons l sp =>
        obtain ⟨e1, h1, h⟩ := except_bind_ok h
        cases h
        intro e he
        rcases List.mem_cons.1 he with rfl | he
        · trivial
        · exact reduceIdx_fit h1 e he

theorem Fit.geti {s : List Int} (hf : Fit (room s)) (k : Nat) : Fit (Whale.geti s k) := by
  by_cases h : k < s.length
  · rw [geti_eq_getElem h]; exact hf.dim (List.getElem_mem h)
  · have : Whale.geti s k = 0 := by simp [Whale.geti, List.getD_eq_getElem?_getD, List.getElem?_eq_none (Nat.le_of_not_lt h)]
    rw [this]
    exact hf.zero

theorem reducedDict_fit {a : Nat} {s : List Int} {axis : List Nat} (hf : Fit (room s)) : ∀ p ∈ reducedDict a s axis, Fit p.2.extent := by
  unfold reducedDict
  have : ∀ (l : List (Nat × Nat)) (d : List (Nat × LoopIndex)), (∀ p ∈ d, Fit p.2.extent) → ∀ p ∈ l.foldl (fun d p =>
    let l : LoopIndex := { owner := a, red := true, pos := p.2, extent := geti s p.1 }
    if d.any (fun q => q.1 == p.1) then d.map (fun q => if q.1 == p.1 then (q.1, l) else q) else d ++ [(p.1, l)]) d, Fit p.2.extent := by
    intro l
    induction l with
    | nil => intro d hd; exact hd
    | cons x l ih =>
      intro d hd
      refine ih _ ?_
      intro p hp
      simp only at hp
      split at hp
      · obtain ⟨q, hq, rfl⟩ := List.mem_map.1 hp
        split
        · exact hf.geti _
        · exact hd q hq
      · rcases List.mem_append.1 hp with hp | hp
        · exact hd p hp
        · simp only [List.mem_singleton] at hp
          subst hp
          exact hf.geti _
  exact this _ _ (fun p hp => by cases hp)

omit [Lim] in
theorem pyGet_mem {α : Type} {l : List α} {k : Int} {x : α} (h : pyGet l k = .ok x) : x ∈ l := by
  unfold pyGet at h
  split at h
  · split at h
    · rename_i e; cases h; exact List.mem_of_getElem? e
    · cases h
  · cases h

theorem pad_idx_fit {ls : List LoopIndex} {dim c : Int} {op : Ops} (hc : Fit c) :
    ∀ e ∈ ls.zipIdx.map fun p => if (p.2 : Int) = dim then IExpr.bin op (.index p.1) (.const c) else .index p.1, e.fit := by
  intro e he
  obtain ⟨p, _, rfl⟩ := List.mem_map.1 he
  split
  · exact ⟨trivial, hc⟩
  · trivial

theorem mkExpr_fit {g : Graph V} (hw : WF g) (hnn : ∀ i < g.length, NonNeg (g.shape i)) {a : Nat} (ha : a < g.length) (hS : Small g a) {e : DExpr} (h : mkExpr g a = .ok e) : e.fit g := by
  have hn := hw a ha
  have hlt := hw.inputs_lt ha
  have hin : ∀ x ∈ (g.ctx a).inputs, Fit (room (g.shape x)) ∧ NonNeg (g.shape x) := fun x hx => ⟨hS.room (.step .refl hx), hnn x (by have := hlt x hx; omega)⟩
  have hfs : ∀ x ∈ (g.ctx a).inputs, ∀ s ∈ stridesFromShape (g.shape x), Fit s := fun x hx => Fit.strides (hin x hx).2 (hin x hx).1
  have hroom := hS.room .refl
  have hsm : ∀ m ∈ Lim.lim, SmallNode g m a := fun m hm => hS m hm a .refl
  have hsd : g.shape a = (g.nd a).shape := rfl
  unfold NodeOK at hn
  unfold SmallNode at hsm
  unfold mkExpr at h
  have hc' : (g.nd a).ctx = g.ctx a := rfl
  rw [hc'] at hn
  cases hc : g.ctx a <;> simp only [hc, Ctx.inputs, List.mem_cons, List.not_mem_nil, or_false, forall_eq, forall_eq_or_imp] at h hn hfs hin hsm
  case const =>
    cases h
    obtain ⟨_, _, _, _, h1, h2, _⟩ := hn
    refine ⟨loopIdx_fit _, ?_, ?_⟩
    · show Fit (g.nd a).offset
      rw [h2]; exact hroom.zero
    · show ∀ s ∈ (g.nd a).strides, Fit s
      rw [h1]; exact Fit.strides (hnn a ha) hroom
  case unary op x => cases h; exact ⟨loopIdx_fit _, hfs⟩
  case binary op l r => cases h; exact ⟨⟨loopIdx_fit _, hfs.1⟩, loopIdx_fit _, hfs.2⟩
  case sum x axis kd =>
    obtain ⟨i, h1, h⟩ := except_bind_ok h
    cases h
    refine ⟨⟨reduceIdx_fit h1, hfs⟩, ?_⟩
    intro l hl
    obtain ⟨p, hp, rfl⟩ := List.mem_map.1 hl
    exact reducedDict_fit hin.1 p hp
  case reshape x s =>
    obtain ⟨i, h1, h⟩ := except_bind_ok h
    cases h
    exact ⟨reshapeIdx_fit h1 (Fit.strides (hnn a ha) hroom) hfs, hfs⟩
  case broadcast x s =>
    obtain ⟨i, h1, h⟩ := except_bind_ok h
    cases h
    refine ⟨fun e he => ?_, hfs⟩
    obtain ⟨k, _, e⟩ := mapM_mem h1 e he
    obtain ⟨q, _, e⟩ := except_bind_ok e
    split at e
    · cases e; exact hroom.zero
    · obtain ⟨q, _, e⟩ := except_bind_ok e
      cases e; trivial
  case slice x subs =>
    obtain ⟨i, h1, h⟩ := except_bind_ok h
    cases h
    exact ⟨sliceIdxE_fit h1 hn.2.1 hin.1 (fun b hb m hm => (hsm m hm).2 b hb), hfs⟩
  case transpose x axes =>
    obtain ⟨i, h1, h⟩ := except_bind_ok h
    cases h
    refine ⟨fun e he => ?_, hfs⟩
    obtain ⟨k, _, e⟩ := mapM_mem h1 e he
    obtain ⟨q, _, e⟩ := except_bind_ok e
    obtain ⟨q, _, e⟩ := except_bind_ok e
    cases e; trivial
  case contiguous x => cases h; exact ⟨loopIdx_fit _, hfs⟩
  case pad x dim b c =>
    obtain ⟨l, h1, h⟩ := except_bind_ok h
    obtain ⟨n, h2, h⟩ := except_bind_ok h
    cases h
    have hb : Fit b := fun m hm => by have := (hsm m hm).2.1; omega
    have hbn : Fit (b + n) := by
      obtain ⟨d, rfl⟩ : ∃ d : Nat, dim = d := ⟨dim.toNat, by omega⟩
      have hdx : d < (g.shape x).length := by have := hn.2.1.2; simpa [Graph.ndim] using this
      have hn' : n = geti (g.shape x) d := by
        rw [pyGet_nat hdx] at h2
        cases h2
        rw [geti_eq_getElem hdx]
      have hsx : g.shape a = (g.shape x).set d (geti (g.shape x) d + (b + c)) := by rw [hsd, hn.2.2]; rfl
      have hd : geti (g.shape a) d = n + (b + c) := by rw [hsx, geti_set, if_pos ⟨rfl, by simpa using hdx⟩, hn']
      have h0 : 0 ≤ n := by rw [hn', geti_eq_getElem hdx]; exact hin.2 _ (List.getElem_mem hdx)
      have := hroom.geti d
      rw [hd] at this
      intro m hm
      have := this m hm
      have := (hsm m hm).2
      omega
    exact ⟨⟨⟨trivial, hb⟩, trivial, hbn⟩, ⟨pad_idx_fit hb, hfs⟩, trivial⟩
  case dilate x dim st =>
    obtain ⟨l, h1, h⟩ := except_bind_ok h
    cases h
    have hs : Fit st := fun m hm => by
      have h1 := (hsm m hm).2
      have h2 := hn.2.2.1
      omega
    exact ⟨⟨⟨trivial, hs⟩, hroom.zero⟩, ⟨pad_idx_fit hs, hfs⟩, trivial⟩

/-! ### all arrays of a conversion -/

theorem convert_fit {g : Graph V} (h : WF g) (hnn : ∀ i < g.length, NonNeg (g.shape i)) {a : Nat} (ha : a < g.length) (hns : NoScalarReshape g a) (hS : Small g a)
    {funcs : List Nat} {t : Tbl} (hconv : Algo.convert g a = .ok (funcs, t)) : TblFit g t := by
  obtain ⟨t1, e1, f1, _, s1, r1⟩ := arrToFunc_ok h (a + 2) a Tbl.empty (by omega) ha hns (Fresh.empty g)
  obtain ⟨F, hF⟩ := Option.isSome_iff_exists.1 s1
  have hN : TblFit g t1 := by
    intro i F hi
    obtain ⟨hl, _, e, he, rfl⟩ := f1.entry i F hi
    exact mkExpr_fit h hnn hl (hS.reach ((r1 i (by rw [hi]; rfl)).resolve_left (by simp [Tbl.empty]))) he
  unfold Algo.convert at hconv
  simp only [e1, bind, Except.bind, hF] at hconv
  cases h2 : countRefs t1 (a + 2) F.expr (fun _ => 0) with
  | error x => simp [h2] at hconv
  | ok rc =>
    simp only [h2] at hconv
    cases h3 : tryFuse rc (a + 2) F.expr t1 with
    | error x => simp [h3] at hconv
    | ok p =>
      obtain ⟨e', t2⟩ := p
      simp only [h3] at hconv
      obtain ⟨hr1, hr2⟩ := tryFuse_fit (a + 2) h3 hN (hN a F hF)
      split at hconv
      · cases hconv
      · rename_i q hq
        simp only [pure, Except.pure, Except.ok.injEq, Prod.mk.injEq] at hconv
        obtain ⟨rfl, rfl⟩ := hconv
        intro i G hG
        by_cases hia : i = a
        · subst hia
          rw [Tbl.set_same, Option.some.injEq] at hG
          subst hG
          exact hr2
        · rw [Tbl.set_ne _ _ hia] at hG
          exact hr1 i G hG

/-! ### statements -/

theorem genI_lits : ∀ {e : IExpr} {n n' : Nat} {s : Stmt} {k : KI}, e.fit → genI e n = .ok (s, k, n') → Stmt.lits Fit s ∧ KI.lits Fit k
  | .index l, n, n', s, k, _, h => by cases h; exact ⟨trivial, trivial⟩
  | .const c, n, n', s, k, he, h => by cases h; exact ⟨trivial, he⟩
  | .bin op l r, n, n', s, k, he, h => by
    rw [genI] at h
    by_cases hop : renderBin op = false
    · rw [if_pos hop] at h; cases h
    · rw [if_neg hop] at h
      obtain ⟨⟨s1, a, n1⟩, h1, h⟩ := except_bind_ok h
      obtain ⟨⟨s2, b, n2⟩, h2, h⟩ := except_bind_ok h
      cases h
      have i1 := genI_lits he.1 h1
      have i2 := genI_lits he.2 h2
      exact ⟨⟨i1.1, i2.1, i1.2, i2.2⟩, trivial⟩

theorem genIs_lits : ∀ {es : List IExpr} {n n' : Nat} {s : Stmt} {ks : List KI}, (∀ e ∈ es, e.fit) → genIs es n = .ok (s, ks, n') → Stmt.lits Fit s ∧ ∀ k ∈ ks, KI.lits Fit k
  | [], n, n', s, ks, _, h => by cases h; exact ⟨trivial, fun _ h => by cases h⟩
  | e :: es, n, n', s, ks, he, h => by
    rw [genIs] at h
    obtain ⟨⟨s1, a, n1⟩, h1, h⟩ := except_bind_ok h
    obtain ⟨⟨s2, as, n2⟩, h2, h⟩ := except_bind_ok h
    cases h
    have i1 := genI_lits (he _ List.mem_cons_self) h1
    have i2 := genIs_lits (fun e h => he e (List.mem_cons_of_mem _ h)) h2
    exact ⟨⟨i1.1, i2.1⟩, List.forall_mem_cons.2 ⟨i1.2, i2.2⟩⟩

theorem sumKI_lits : ∀ {ts : List KI} {t : KI}, KI.lits Fit t → (∀ k ∈ ts, KI.lits Fit k) → KI.lits Fit (sumKI t ts)
  | [], t, h, _ => h
  | x :: ts, t, h, hs => sumKI_lits (t := .bin .Add t x) ⟨h, hs x List.mem_cons_self⟩ fun k hk => hs k (List.mem_cons_of_mem _ hk)

theorem mulTerms_lits {names : List KI} {st : List Int} (hn : ∀ k ∈ names, KI.lits Fit k) (hs : ∀ s ∈ st, Fit s) :
    ∀ k ∈ List.zipWith (fun a st => KI.bin .Mul a (.lit st)) names st, KI.lits Fit k := by
  intro k hk
  rw [← List.map_uncurry_zip_eq_zipWith] at hk
  obtain ⟨p, hp, rfl⟩ := List.mem_map.1 hk
  exact ⟨hn _ (List.of_mem_zip hp).1, hs _ (List.of_mem_zip hp).2⟩

theorem flatIdx_lits {shape : List Int} {names : List KI} (h0 : Fit 0) (hn : ∀ k ∈ names, KI.lits Fit k) (hs : ∀ s ∈ stridesFromShape shape, Fit s) : KI.lits Fit (flatIdx shape names) := by
  unfold flatIdx
  split
  · exact h0
  · have := mulTerms_lits hn hs
    split
    · exact h0
    · rename_i t ts e
      rw [e, List.forall_mem_cons] at this
      exact sumKI_lits this.1 this.2

theorem bufIdx_lits {offset : Int} {strides : List Int} {names : List KI} (h0 : Fit offset) (hn : ∀ k ∈ names, KI.lits Fit k) (hs : ∀ s ∈ strides, Fit s) :
    KI.lits Fit (bufIdx offset strides names) := by
  refine sumKI_lits h0 ?_
  intro k hk
  obtain ⟨p, hp, rfl⟩ := List.mem_map.1 hk
  have := List.of_mem_zip (List.mem_filter.1 hp).1
  exact ⟨hn _ this.1, hs _ this.2⟩

theorem redLoops_lits {b : Stmt} (hb : Stmt.lits Fit b) : ∀ {ls : List LoopIndex}, (∀ l ∈ ls, Fit l.extent) → Stmt.lits Fit (redLoops ls b)
  | [], _ => hb
  | _ :: ls, h => ⟨h _ List.mem_cons_self, redLoops_lits hb fun l hl => h l (List.mem_cons_of_mem _ hl)⟩

theorem genD_lits {g : Graph V} {tbl : Tbl} {args : Args} {dt : DType} (h0 : Fit 0) : ∀ {e : DExpr} {n n' : Nat} {s : Stmt} {k : KD}, e.fit g →
    (∀ f ∈ funcRefs e, ∀ F, tbl f = some F → F.outShape = g.shape f) → genD g tbl args dt e n = .ok (s, k, n') → Stmt.lits Fit s ∧ Stmt.lits.KD.lits Fit k
  | .const c, n, n', s, k, _, _, h => by cases h; exact ⟨trivial, trivial⟩
  | .un op e, n, n', s, k, he, hsh, h => by
    rw [genD] at h
    by_cases hop : renderUn op = false
    · rw [if_pos hop] at h; cases h
    · rw [if_neg hop] at h
      obtain ⟨⟨s1, a, n1⟩, h1, h⟩ := except_bind_ok h
      cases h
      have i1 := genD_lits (e := e) h0 he hsh h1
      exact ⟨⟨i1.1, i1.2⟩, trivial⟩
  | .bin op l r, n, n', s, k, he, hsh, h => by
    rw [genD] at h
    by_cases hop : renderBin op = false
    · rw [if_pos hop] at h; cases h
    · rw [if_neg hop] at h
      obtain ⟨⟨s1, a, n1⟩, h1, h⟩ := except_bind_ok h
      obtain ⟨⟨s2, b, n2⟩, h2, h⟩ := except_bind_ok h
      cases h
      have i1 := genD_lits h0 he.1 (fun f hf => hsh f (by simp only [funcRefs, List.mem_append]; exact .inl hf)) h1
      have i2 := genD_lits h0 he.2 (fun f hf => hsh f (by simp only [funcRefs, List.mem_append]; exact .inr hf)) h2
      exact ⟨⟨i1.1, i2.1, i1.2, i2.2⟩, trivial⟩
  | .tern op c t f, n, n', s, k, he, hsh, h => by
    rw [genD] at h
    by_cases hop : op ≠ .Where
    · rw [if_pos hop] at h; cases h
    · rw [if_neg hop] at h
      obtain ⟨⟨s1, c1, n1⟩, h1, h⟩ := except_bind_ok h
      obtain ⟨⟨s2, a, n2⟩, h2, h⟩ := except_bind_ok h
      obtain ⟨⟨s3, b, n3⟩, h3, h⟩ := except_bind_ok h
      cases h
      have i1 := genI_lits he.1 h1
      have i2 := genD_lits h0 he.2.1 (fun f hf => hsh f (by simp only [funcRefs, List.mem_append]; exact .inl hf)) h2
      have i3 := genD_lits h0 he.2.2 (fun f hf => hsh f (by simp only [funcRefs, List.mem_append]; exact .inr hf)) h3
      exact ⟨⟨trivial, i1.1, i1.2, ⟨i2.1, i2.2⟩, i3.1, i3.2⟩, trivial⟩
  | .red op e reduced, n, n', s, k, he, hsh, h => by
    rw [genD] at h
    obtain ⟨⟨s1, a, n1⟩, h1, h⟩ := except_bind_ok h
    by_cases hop : op ≠ .Sum
    · simp only [if_pos hop] at h; cases h
    · simp only [if_neg hop] at h
      cases h
      have i1 := genD_lits h0 he.1 hsh h1
      exact ⟨⟨trivial, redLoops_lits (by exact ⟨i1.1, trivial, i1.2⟩) he.2⟩, trivial⟩
  | .func f idx, n, n', s, k, he, hsh, h => by
    rw [genD] at h
    obtain ⟨a, ha, h⟩ := except_bind_ok h
    obtain ⟨⟨s1, names, n1⟩, h1, h⟩ := except_bind_ok h
    simp only at h
    split at h
    · cases h
    · rename_i F hF
      cases h
      have i1 := genIs_lits he.1 h1
      refine ⟨i1.1, flatIdx_lits h0 i1.2 ?_⟩
      rw [hsh f (by simp [funcRefs]) F hF]
      exact he.2
  | .buf b idx, n, n', s, k, he, hsh, h => by
    rw [genD] at h
    obtain ⟨a, ha, h⟩ := except_bind_ok h
    obtain ⟨⟨s1, names, n1⟩, h1, h⟩ := except_bind_ok h
    cases h
    have i1 := genIs_lits he.1 h1
    exact ⟨i1.1, bufIdx_lits he.2.1 i1.2 he.2.2⟩

theorem genLoops_lits {b : Stmt} (hb : Stmt.lits Fit b) : ∀ {ls : List LoopSched}, (∀ l ∈ ls, l.kind = .spatial → Fit l.lv.extent) → Stmt.lits Fit (genLoops ls b)
  | [], _ => hb
  | l :: ls, h => by
    unfold genLoops
    have := genLoops_lits hb fun l hl => h l (List.mem_cons_of_mem _ hl)
    split
    · exact this
    · rename_i hk
      split
      · exact ⟨trivial, this⟩
      · exact ⟨trivial, this⟩
      · exact ⟨h l List.mem_cons_self (not_not.1 hk), this⟩

theorem codegen_lits {g : Graph V} {tbl : Tbl} {f : Func} {sch : Schedule} {args : Args} {n n' : Nat} {K : Kernel} (h0 : Fit 0) (hf : f.expr.fit g)
    (hsh : ∀ d ∈ funcRefs f.expr, ∀ F, tbl d = some F → F.outShape = g.shape d) (hst : ∀ s ∈ stridesFromShape f.outShape, Fit s) (hl : ∀ l ∈ sch.loops, l.kind = .spatial → Fit l.lv.extent)
    (hsp : ∀ p ∈ sch.splits, Fit p.factor ∧ Fit p.orig.extent) (h : codegen g tbl f sch args n = .ok (K, n')) : Stmt.lits Fit K.body := by
  unfold codegen at h
  obtain ⟨⟨s, k, m⟩, hg, h⟩ := except_bind_ok h
  cases h
  have hd := genD_lits h0 hf hsh hg
  have hsi : ∀ l : List SplitLoop, (∀ p ∈ l, Fit p.factor ∧ Fit p.orig.extent) → Stmt.lits Fit (splitInits l) := by
    intro l; induction l with
    | nil => intro _; exact trivial
    | cons a l ih => intro h; exact ⟨⟨⟨trivial, (h a List.mem_cons_self).1⟩, trivial⟩, ih fun p hp => h p (List.mem_cons_of_mem _ hp)⟩
  have hsg : ∀ l : List SplitLoop, (∀ p ∈ l, Fit p.factor ∧ Fit p.orig.extent) → Stmt.lits Fit (splitGuards l) := by
    intro l; induction l with
    | nil => intro _; exact trivial
    | cons a l ih =>
      intro h
      have := ih fun p hp => h p (List.mem_cons_of_mem _ hp)
      unfold splitGuards
      split
      · exact ⟨⟨(h a List.mem_cons_self).2, trivial⟩, this⟩
      · exact this
  have hn : ∀ k ∈ f.outLoops.map (fun l => KI.var l.name), KI.lits Fit k := by
    intro k hk
    obtain ⟨l, _, rfl⟩ := List.mem_map.1 hk
    trivial
  exact genLoops_lits (by exact ⟨hsi _ hsp, hsg _ hsp, hd.1, flatIdx_lits h0 hn hst, hd.2⟩) hl

end Whale
