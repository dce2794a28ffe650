import Verif.Proofs.LayoutOnly
import Verif.Proofs.Source
import Verif.Spec.Ctypes
/-
For C70: sessions with conversions follow sessions in C numbers.
-/
namespace Whale
open Mat Hist Kern Codegen
variable {H V : Type}

/-- Without the cache and the history of device operations. -/
def World.plain (w : World V) : World V := { w with cache := [], hits := fun _ => 0, hist := [], ev := [] }

/-- Number by number. -/
abbrev FRel (f : H → V) : H → V → Prop := fun h v => v = f h

theorem forall2_map {f : H → V} {l : List H} {l' : List V} : List.Forall₂ (FRel f) l l' ↔ l' = l.map f := by
  constructor
  · intro h
    induction h with
    | nil => rfl
    | cons h _ ih => rw [h, ih]; rfl
  · rintro rfl
    induction l with
    | nil => exact .nil
    | cons x l ih => exact .cons rfl ih

theorem nodeRel_map {f : H → V} {n : Node H} {n' : Node V} :
    NodeRel (FRel f) n n' ↔ n' = { dtype := n.dtype, shape := n.shape, strides := n.strides, offset := n.offset, ctx := n.ctx, val := n.val.map (List.map f) } := by
  constructor
  · intro h
    obtain ⟨d, s, st, o, c, v⟩ := h
    cases n; cases n'
    simp only at d s st o c v
    subst d; subst s; subst st; subst o; subst c
    congr 1
    cases v with
    | none => rfl
    | some h => rw [forall2_map.1 h]; rfl
  · rintro rfl
    refine ⟨rfl, rfl, rfl, rfl, rfl, ?_⟩
    cases n.val with
    | none => exact .none
    | some l => exact .some (forall2_map.2 rfl)

theorem gRel_map {f : H → V} {g : Graph H} {g' : Graph V} : GRel (FRel f) g g' ↔ g' = g.mapData f := by
  unfold GRel Graph.mapData
  constructor
  · intro h
    induction h with
    | nil => rfl
    | cons h _ ih => rw [nodeRel_map.1 h, ih]; rfl
  · rintro rfl
    induction g with
    | nil => exact .nil
    | cons n g ih => exact .cons (nodeRel_map.2 rfl) ih

section
variable {f : H → V} {s : CWorld H V} {w : World V}

theorem lower_g (h : Cty.lower f s = w.plain) : GRel (FRel f) s.w.g w.g := gRel_map.2 (congrArg World.g h).symm

theorem lower_val (h : Cty.lower f s = w.plain) (i : Nat) : (w.g.nd i).val = ((s.w.g.nd i).val).map (List.map f) := by
  have := nodeRel_map.1 ((lower_g h).nd i)
  rw [this]

theorem lower_cpuBuf (h : Cty.lower f s = w.plain) (i : Nat) : cpuBuf w i = (cpuBuf s.w i).map (List.map f) := by
  have hc : w.cpu i = (s.w.cpu i).map (List.map f) := (congrFun (congrArg World.cpu h) i).symm
  unfold cpuBuf
  rw [hc, lower_val h]
  cases s.w.cpu i <;> rfl

theorem lower_bufLen (h : Cty.lower f s = w.plain) (i : Nat) : bufLen w i = bufLen s.w i := by
  unfold bufLen
  rw [lower_val h, (lower_g h).shape]
  cases (s.w.g.nd i).val with
  | none => rfl
  | some l => simp

theorem lower_dev (h : Cty.lower f s = w.plain) : s.dev = w.dev := congrArg World.dev h
theorem lower_tick (h : Cty.lower f s = w.plain) : s.w.tick = w.tick := congrArg World.tick h
theorem lower_tmp (h : Cty.lower f s = w.plain) : s.w.tmp = w.tmp := congrArg World.tmp h

end

theorem putAll_ok {C : Marshal H V} {f : H → V} {R : Runtime V} {dt : DType} (hC : C.Suits f R dt) : ∀ {l : List H}, (∀ v ∈ l.map f, Sem.Elem R.L R.N dt v) → Cty.putAll C dt l = .ok (l.map f) := by
  intro l
  induction l with
  | nil => intro _; rfl
  | cons x l ih =>
    intro h
    have ih' : l.mapM (C.put dt) = .ok (l.map f) := ih fun v hv => h v (by simp at hv ⊢; exact .inr hv)
    unfold Cty.putAll
    rw [List.mapM_cons, hC.put x (h _ (by simp)), ih']
    rfl

theorem map_get {C : Marshal H V} {f : H → V} {R : Runtime V} {dt : DType} (hC : C.Suits f R dt) {l : List V} (h : ∀ v ∈ l, Sem.Elem R.L R.N dt v) : (l.map C.get).map f = l := by
  rw [List.map_map]
  conv => rhs; rw [← List.map_id l]
  exact List.map_congr_left fun v hv => hC.out v (h v hv)

/-- Filling missing CPU buffers. -/
theorem lower_fill {C : Marshal H V} {f : H → V} {A : Scalar V} (h0 : A.host 0 = f (C.A.host 0)) : ∀ (l : List Nat) {s : CWorld H V} {w : World V}, Cty.lower f s = w.plain →
    Cty.lower f { s with w := l.foldl (fillCpu C.A) s.w } = (l.foldl (fillCpu A) w).plain := by
  intro l
  induction l with
  | nil => intro s w h; exact h
  | cons i l ih =>
    intro s w h
    refine ih (s := { s with w := fillCpu C.A s.w i }) ?_
    unfold fillCpu
    rw [lower_cpuBuf h]
    cases hc : cpuBuf s.w i with
    | some l => exact h
    | none =>
      simp only [Option.map_none, lower_bufLen h, h0]
      have : (fun j => Option.map (List.map f) (upd s.w.cpu i (List.replicate (bufLen s.w i).toNat (C.A.host 0)) j)) = upd w.cpu i (List.replicate (bufLen s.w i).toNat (f (C.A.host 0))) := by
        funext j
        unfold upd
        split
        · simp
        · exact congrFun (congrArg World.cpu h) j
      show Cty.lower f { s with w := { s.w with cpu := _ } } = ({ w with cpu := _ } : World V).plain
      unfold Cty.lower World.plain
      simp only [this]
      unfold Cty.lower World.plain at h
      injection h with a1 a2 a3 a4 a5 a6 a7 a8 a9 a10 a11 a12
      simp only [a1, a3, a4, a8, a9, a10, a12]

theorem lower_alloc {f : H → V} {R : Runtime V} {s : CWorld H V} {w w' : World V} {i : Nat} (h : Cty.lower f s = w.plain) (ha : alloc R.b w i = .ok w') :
    ∃ s', Cty.alloc R s i = .ok s' ∧ Cty.lower f s' = w'.plain ∧ s'.texts = s.texts ∧ s'.w = s.w := by
  unfold alloc at ha
  unfold Cty.alloc
  rw [lower_dev h, ← lower_bufLen h]
  cases hd : w.dev i with
  | some l => rw [hd] at ha; cases ha; exact ⟨s, rfl, h, rfl, rfl⟩
  | none =>
    rw [hd] at ha
    simp only at ha ⊢
    split at ha
    · cases ha
    · rename_i hn
      cases ha
      rw [if_neg hn]
      refine ⟨_, rfl, ?_, rfl, rfl⟩
      unfold Cty.lower World.plain at h ⊢
      injection h with a1 a2 a3 a4 a5 a6 a7 a8 a9 a10 a11 a12
      simp only [a1, a2, a3, a4, a8, a9, a10, a12]

theorem lower_htod {C : Marshal H V} {f : H → V} {R : Runtime V} {dt : DType} (hC : C.Suits f R dt) {s : CWorld H V} {w : World V} {i k : Nat} (h : Cty.lower f s = w.plain)
    (he : k ≠ 0 → w.g.dtype i = dt ∧ ∀ l, cpuBuf w i = some l → ∀ v ∈ l, Sem.Elem R.L R.N dt v) :
    ∃ s', Cty.htod C s i k = .ok s' ∧ Cty.lower f s' = (htod w i k).plain ∧ s'.texts = s.texts ∧ s'.w = s.w := by
  unfold htod Cty.htod
  have hc := lower_cpuBuf h i
  cases hs : cpuBuf s.w i with
  | none =>
    rw [hs] at hc
    rw [hc]
    exact ⟨s, rfl, h, rfl, rfl⟩
  | some l =>
    rw [hs] at hc
    rw [hc]
    simp only [Option.map_some]
    by_cases hk : k ≠ 0
    · rw [if_pos hk, if_pos hk]
      obtain ⟨hd, hel⟩ := he hk
      rw [(lower_g h).dtype, hd, putAll_ok hC (hel _ hc)]
      refine ⟨_, rfl, ?_, rfl, rfl⟩
      unfold Cty.lower World.plain at h ⊢
      injection h with a1 a2 a3 a4 a5 a6 a7 a8 a9 a10 a11 a12
      simp only [a1, a2, a3, a4, a8, a9, a10, a12]
    · rw [if_neg hk, if_neg hk]
      exact ⟨s, rfl, h, rfl, rfl⟩

theorem alloc_cpu {b : Backend V} {w w' : World V} {i : Nat} (h : alloc b w i = .ok w') : w'.cpu = w.cpu ∧ w'.g = w.g := by
  unfold alloc at h
  split at h
  · cases h; exact ⟨rfl, rfl⟩
  · split at h
    · cases h
    · cases h; exact ⟨rfl, rfl⟩

theorem htod_cpu (w : World V) (i k : Nat) : (htod w i k).cpu = w.cpu ∧ (htod w i k).g = w.g := by
  unfold htod
  split
  · split <;> exact ⟨rfl, rfl⟩
  · exact ⟨rfl, rfl⟩

/-- The parameter loop. -/
theorem lower_toDevs {C : Marshal H V} {f : H → V} {R : Runtime V} {dt : DType} (hC : C.Suits f R dt) : ∀ (ps : List (Nat × Nat)) {s : CWorld H V} {w w' : World V}, Cty.lower f s = w.plain →
    (∀ p ∈ ps, p.2 ≠ 0 → w.g.dtype p.1 = dt ∧ ∀ l, cpuBuf w p.1 = some l → ∀ v ∈ l, Sem.Elem R.L R.N dt v) → ps.foldlM (toDev R.b) w = .ok w' →
    ∃ s', ps.foldlM (Cty.toDev R C) s = .ok s' ∧ Cty.lower f s' = w'.plain ∧ s'.texts = s.texts ∧ s'.w = s.w := by
  intro ps
  induction ps with
  | nil => intro s w w' h _ hr; cases hr; exact ⟨s, rfl, h, rfl, rfl⟩
  | cons p ps ih =>
    intro s w w' h hel hr
    rw [List.foldlM_cons] at hr ⊢
    obtain ⟨w1, h1, h2⟩ := except_bind_ok hr
    unfold toDev at h1
    obtain ⟨w0, h0, h1⟩ := except_bind_ok h1
    cases h1
    obtain ⟨s0, e0, l0, t0, k0⟩ := lower_alloc (f := f) h h0
    have hc0 := alloc_cpu h0
    have hb0 : ∀ i, cpuBuf w0 i = cpuBuf w i := fun i => by unfold cpuBuf; rw [hc0.1, hc0.2]
    obtain ⟨s1, e1, l1, t1, k1⟩ := lower_htod hC (i := p.1) (k := p.2) l0 (by
      intro hk
      obtain ⟨a, b⟩ := hel p (by simp) hk
      exact ⟨by rw [hc0.2]; exact a, fun l hl => b l (by rw [← hb0]; exact hl)⟩)
    have hc1 := htod_cpu w0 p.1 p.2
    obtain ⟨s2, e2, l2, t2, k2⟩ := ih l1 (by
      intro q hq hk
      obtain ⟨a, b⟩ := hel q (by simp [hq]) hk
      refine ⟨by rw [hc1.2, hc0.2]; exact a, fun l hl => b l ?_⟩
      rw [← hl]; unfold cpuBuf; rw [hc1.1, hc1.2, hc0.1, hc0.2]) h2
    refine ⟨s2, ?_, l2, t2.trans (t1.trans t0), k2.trans (k1.trans k0)⟩
    unfold Cty.toDev
    rw [e0]
    show (Cty.htod C s0 p.1 p.2 >>= _) = _
    rw [e1]
    exact e2

theorem putIns {C : Marshal H V} {f : H → V} {R : Runtime V} {dt : DType} (hC : C.Suits f R dt) {buf : Nat → Option (List H)} {dts : Nat → DType} {D : Nat → List V} : ∀ {ins : List Nat},
    (∀ i ∈ ins, dts i = dt ∧ (∃ l, buf i = some l ∧ l.map f = D i) ∧ ∀ v ∈ D i, Sem.Elem R.L R.N dt v) →
    ∃ is, (ins.mapM fun i => (buf i).map fun l => (i, l)) = some is ∧ (is.mapM fun q => Cty.putAll C (dts q.1) q.2) = .ok (ins.map D) := by
  intro ins
  induction ins with
  | nil => intro _; exact ⟨[], rfl, rfl⟩
  | cons i ins ih =>
    intro h
    obtain ⟨is, e1, e2⟩ := ih fun j hj => h j (by simp [hj])
    obtain ⟨hd, ⟨l, hl, hD⟩, hel⟩ := h i (by simp)
    refine ⟨(i, l) :: is, ?_, ?_⟩
    · rw [List.mapM_cons, hl, e1]; rfl
    · rw [List.mapM_cons, e2]
      simp only [hd]
      rw [putAll_ok hC (by rw [hD]; exact hel), hD]
      rfl

/-- One kernel. -/
theorem cinvoke_sim {C : Marshal H V} {f : H → V} {R : Runtime V} {dt : DType} (hC : C.Suits f R dt) {w w' : World V} {sch : Schedule} {K : Kernel} {out : Nat} {ins : List Nat}
    (h : Mat.invoke R.b w sch K out ins = .ok w') (ho : out < w.g.length) (hins : ∀ i ∈ ins, i < w.g.length) (hw : WInv R.b w) (hw' : WInv R.b w') (hg : w'.g = w.g) {s : CWorld H V}
    (hs : Cty.lower f s = w.plain) {text : Str} {p : Syntax.Prog} (hp : Syntax.parse R.L text = some p) {P : Prop}
    (hty : ∀ i, i = out ∨ i ∈ ins → w.g.dtype i = dt ∧ ∀ v ∈ (den R.b.A w.g i).flatten, Sem.Elem R.L R.N dt v)
    (hcall : ∀ tick (o : List V), (o.length : Int) = prod (w.g.shape out) →
      Sim P (Src.exec R p tick sch o (ins.map fun i => (den R.b.A w.g i).flatten)) fun l => l = (den R.b.A w.g out).flatten) :
    Sim P (Cty.invoke R C s sch text out ins) fun s' => Cty.lower f s' = w'.plain ∧ s'.texts = s.texts := by
  have ho' : out < w'.g.length := by rw [hg]; exact ho
  have hlen := flatten_len hw' ho'
  rw [hg] at hlen
  unfold Mat.invoke at h
  by_cases hni : out ∈ ins
  · rw [if_pos hni] at h; cases h
  rw [if_neg hni] at h
  by_cases hpl : K.params.length ≠ (out :: ins).length
  · rw [if_pos hpl] at h; cases h
  rw [if_neg hpl] at h
  unfold Cty.invoke
  rw [hp]
  cases hgpu : R.b.isGpu with
  | true =>
    simp only [hgpu, if_true] at h
    obtain ⟨w1, h1, h⟩ := except_bind_ok h
    obtain ⟨s1, e1, l1, t1, k1⟩ := lower_toDevs hC _ hs (by
      intro q hq hk
      have hm : q.1 ∈ ins := by
        obtain ⟨j, hj⟩ := List.mem_iff_getElem?.1 hq
        rw [List.getElem?_zipIdx] at hj
        cases j with
        | zero => simp at hj; subst hj; exact absurd rfl hk
        | succ j =>
          simp only [List.getElem?_cons_succ] at hj
          cases hx : ins[j]? with
          | none => rw [hx] at hj; cases hj
          | some x => rw [hx] at hj; cases hj; exact List.mem_of_getElem? hx
      refine ⟨(hty _ (.inr hm)).1, fun l hl v hv => (hty _ (.inr hm)).2 v ?_⟩
      rw [← cpuBuf_ok hw (hins _ hm) hl]; exact hv) h1
    simp only [if_true]
    cases hd : w1.dev out with
    | none => simp only [hd] at h; cases h
    | some o =>
      cases hi : ins.mapM w1.dev with
      | none => simp only [hd, hi] at h; cases h
      | some is =>
        simp only [hd, hi] at h
        cases hrun : gpuRun R.b w1.tick (machine R.b K o is) sch K.body with
        | none => rw [hrun] at h; cases h
        | some ws =>
          rw [hrun] at h
          cases h
          have hlo : launchOK sch = true := by
            unfold gpuRun at hrun
            split at hrun
            · assumption
            · cases hrun
          have hout := (hw'.dev out (applyWrites o ws) (upd_same _ _ _)).2
          have hout' : applyWrites o ws = (den R.b.A w.g out).flatten := by rw [hout]; exact congrArg (fun g => (den R.b.A g out).flatten) hg
          have hol : (o.length : Int) = prod (w.g.shape out) := by
            rw [← hlen, ← hout', applyWrites_length]
          have his : is = ins.map fun i => (den R.b.A w.g i).flatten := by
            refine mapM_ext_some hi fun i him y hy => ?_
            have hne : i ≠ out := by rintro rfl; exact hni him
            have := (hw'.dev i y (by rw [← hy]; exact upd_ne _ _ hne)).2
            rw [this]; exact congrArg (fun g => (den R.b.A g i).flatten) hg
          have hc := hcall w1.tick o hol
          rw [← his] at hc
          rw [e1]
          show Sim P (if launchOK sch = false then _ else _) _
          rw [if_neg (by rw [hlo]; decide)]
          show Sim P (match s1.dev out, ins.mapM s1.dev with
            | some o, some is => _
            | _, _ => _) _
          rw [lower_dev l1, hd, hi, lower_tick l1]
          refine hc.bind ?_
          rintro l rfl
          refine .inl ⟨_, rfl, ?_, t1⟩
          rw [hout']
          unfold Cty.lower World.plain at l1 ⊢
          injection l1 with a1 a2 a3 a4 a5 a6 a7 a8 a9 a10 a11 a12
          simp only [a1, a2, a3, a4, a8, a10, a12]
  | false =>
    simp only [hgpu] at h ⊢
    simp only [Bool.false_eq_true, if_false] at h ⊢
    have l1 := lower_fill (A := R.b.A) hC.consts.zero.1 (out :: ins) hs
    have hfill : ∀ l, cpuBuf w out = some l → cpuBuf ((out :: ins).foldl (fillCpu R.b.A) w) out = some l := by
      intro l hl
      have key : ∀ (L : List Nat) (w : World V), cpuBuf w out = some l → cpuBuf (L.foldl (fillCpu R.b.A) w) out = some l := by
        intro L
        induction L with
        | nil => intro w h; exact h
        | cons i L ih =>
          intro w h
          apply ih
          unfold fillCpu
          split
          · exact h
          · rename_i hi
            have : out ≠ i := by rintro rfl; rw [hi] at h; cases h
            unfold cpuBuf at h ⊢
            simp only [upd_ne _ _ this]
            exact h
      exact key _ w hl
    have hfillH : cpuBuf s.w out = none → cpuBuf ((out :: ins).foldl (fillCpu C.A) s.w) out = some (List.replicate (bufLen s.w out).toNat (C.A.host 0)) := by
      intro hn
      have key : ∀ (L : List Nat) (w : World H) l, cpuBuf w out = some l → cpuBuf (L.foldl (fillCpu C.A) w) out = some l := by
        intro L
        induction L with
        | nil => intro w l h; exact h
        | cons i L ih =>
          intro w l h
          apply ih
          unfold fillCpu
          split
          · exact h
          · rename_i hi
            have : out ≠ i := by rintro rfl; rw [hi] at h; cases h
            unfold cpuBuf at h ⊢
            simp only [upd_ne _ _ this]
            exact h
      rw [List.foldl_cons]
      apply key
      unfold fillCpu
      rw [hn]
      simp only [cpuBuf, upd_same, Option.some_or]
    generalize hw1 : (out :: ins).foldl (fillCpu R.b.A) w = w1 at *
    generalize hv1 : (out :: ins).foldl (fillCpu C.A) s.w = v1 at *
    change (match cpuBuf w1 out, ins.mapM (cpuBuf w1) with
      | some o, some is => _
      | _, _ => _) = _ at h
    cases hd : cpuBuf w1 out with
    | none => simp only [hd] at h; cases h
    | some o =>
      cases hi : ins.mapM (cpuBuf w1) with
      | none => simp only [hd, hi] at h; cases h
      | some is =>
        simp only [hd, hi] at h
        cases hrun : R.b.run w1.tick (machine R.b K o is) sch K.body with
        | none => rw [hrun] at h; cases h
        | some ws =>
          rw [hrun] at h
          cases h
          have hg1 : w1.g = w.g := hg
          have hout := (hw'.cpu out (applyWrites o ws) (upd_same _ _ _)).2
          have hout' : applyWrites o ws = (den R.b.A w.g out).flatten := by rw [hout]; exact congrArg (fun g => (den R.b.A g out).flatten) hg
          have hol : (o.length : Int) = prod (w.g.shape out) := by
            rw [← hlen, ← hout', applyWrites_length]
          have hgd : v1.g.dtype = w.g.dtype := by rw [← hg1]; exact (lower_g l1).dtype
          -- the output
          have hdo := lower_cpuBuf l1 out
          rw [hd] at hdo
          obtain ⟨oh, hoh, hom⟩ : ∃ oh, cpuBuf v1 out = some oh ∧ oh.map f = o := by
            cases hx : cpuBuf v1 out with
            | none => rw [show cpuBuf ({ s with w := v1 } : CWorld H V).w out = cpuBuf v1 out from rfl, hx] at hdo; cases hdo
            | some oh => rw [show cpuBuf ({ s with w := v1 } : CWorld H V).w out = cpuBuf v1 out from rfl, hx] at hdo; cases hdo; exact ⟨oh, rfl, rfl⟩
          obtain ⟨oc, hoc, hocl⟩ : ∃ oc, Cty.putAll C dt oh = .ok oc ∧ oc.length = o.length := by
            cases hx : cpuBuf w out with
            | some l =>
              have := hfill l hx
              rw [hd] at this
              cases this
              refine ⟨o, ?_, rfl⟩
              rw [← hom]
              apply putAll_ok hC
              intro v hv
              rw [hom] at hv
              refine (hty out (.inl rfl)).2 v ?_
              rw [← cpuBuf_ok hw ho hx]; exact hv
            | none =>
              have hn : cpuBuf s.w out = none := by
                have := lower_cpuBuf hs out
                rw [hx] at this
                cases hy : cpuBuf s.w out with
                | none => rfl
                | some l => rw [hy] at this; cases this
              have := hfillH hn
              rw [hoh] at this
              cases this
              obtain ⟨z, hz⟩ := hC.zero
              refine ⟨List.replicate (bufLen s.w out).toNat z, ?_, by rw [← hom]; simp⟩
              unfold Cty.putAll
              generalize (bufLen s.w out).toNat = n
              clear hoh hom
              induction n with
              | zero => rfl
              | succ n ih => rw [List.replicate_succ, List.mapM_cons, hz, ih]; rfl
          -- the inputs
          have hIn : ∀ i ∈ ins, v1.g.dtype i = dt ∧ (∃ l, cpuBuf v1 i = some l ∧ l.map f = (den R.b.A w.g i).flatten) ∧ ∀ v ∈ (den R.b.A w.g i).flatten, Sem.Elem R.L R.N dt v := by
            intro i him
            refine ⟨by rw [hgd]; exact (hty i (.inr him)).1, ?_, (hty i (.inr him)).2⟩
            have hne : i ≠ out := by rintro rfl; exact hni him
            have hsome : ∃ y, cpuBuf w1 i = some y := by
              have : ∀ (l : List Nat) is, l.mapM (cpuBuf w1) = some is → ∀ i ∈ l, ∃ y, cpuBuf w1 i = some y := by
                intro l
                induction l with
                | nil => intro _ _ _ h; cases h
                | cons x l ih =>
                  intro is hm i hi
                  rw [List.mapM_cons] at hm
                  cases hx : cpuBuf w1 x with
                  | none => rw [hx] at hm; cases hm
                  | some y =>
                    cases hl : l.mapM (cpuBuf w1) with
                    | none => rw [hx, hl] at hm; cases hm
                    | some ys =>
                      rcases List.mem_cons.1 hi with rfl | hi
                      · exact ⟨y, hx⟩
                      · exact ih ys hl i hi
              exact this ins is hi i him
            obtain ⟨y, hy⟩ := hsome
            have hcb : cpuBuf ({ w1 with cpu := upd w1.cpu out (applyWrites o ws), tick := w1.tick + 1 } : World V) i = some y := by
              rw [← hy]; unfold cpuBuf; simp only [upd_ne _ _ hne]
            have hyd := cpuBuf_ok hw' (by rw [hg]; exact hins i him) hcb
            have hyd' : y = (den R.b.A w.g i).flatten := by rw [hyd]; exact congrArg (fun g => (den R.b.A g i).flatten) hg
            have hli := lower_cpuBuf l1 i
            rw [hy] at hli
            cases hx : cpuBuf v1 i with
            | none => rw [show cpuBuf ({ s with w := v1 } : CWorld H V).w i = cpuBuf v1 i from rfl, hx] at hli; cases hli
            | some l =>
              rw [show cpuBuf ({ s with w := v1 } : CWorld H V).w i = cpuBuf v1 i from rfl, hx] at hli
              cases hli
              exact ⟨l, rfl, hyd'⟩
          obtain ⟨is', e1, e2⟩ := putIns hC (buf := cpuBuf v1) (dts := v1.g.dtype) hIn
          have hc := hcall w1.tick oc (by rw [hocl]; exact hol)
          rw [hoh, e1]
          have hdt : v1.g.dtype out = dt := by rw [hgd]; exact (hty out (.inl rfl)).1
          simp only
          rw [hdt, hoc]
          simp only [bind, Except.bind]
          rw [e2]
          have htk : v1.tick = w1.tick := lower_tick l1
          rw [htk]
          refine hc.bind ?_
          rintro l rfl
          refine .inl ⟨_, rfl, ?_, rfl⟩
          rw [hout']
          have hel := (hty out (.inl rfl)).2
          have hcpu : (fun j => Option.map (List.map f) (upd v1.cpu out ((den R.b.A w.g out).flatten.map C.get) j)) = upd w1.cpu out (den R.b.A w.g out).flatten := by
            funext j
            unfold upd
            split
            · simp only [Option.map_some, map_get hC hel]
            · exact congrFun (congrArg World.cpu l1) j
          unfold Cty.lower World.plain at l1 ⊢
          simp only [hcpu]
          injection l1 with a1 a2 a3 a4 a5 a6 a7 a8 a9 a10 a11 a12
          simp only at a1 a3 a4 a8 a9 a10 a12
          simp only [a1, a3, a4, a8, a10, a12]

end Whale
