import Verif.Proofs.MatLemmas
import Verif.Proofs.Device
/-
Correctness of `materialize` and `tolist`.
-/
namespace Whale
open Kern Codegen Mat
variable {V : Type}

/-- Invariant of the interpreter state: every buffer content is the meaning of its array, cached kernels are the
generated code (up to the numbering of temporaries) of a launch in the log. -/
structure WInv (b : Backend V) (w : World V) : Prop where
  wf : WF w.g
  nn : ∀ i < w.g.length, NonNeg (w.g.shape i)
  cpu : ∀ i l, w.cpu i = some l → i < w.g.length ∧ l = (den b.A w.g i).flatten
  dev : ∀ i l, w.dev i = some l → i < w.g.length ∧ l = (den b.A w.g i).flatten
  cache : ∀ k K, (k, K) ∈ w.cache → ∃ K0 n0 n, (k, .ok (K0, n0)) ∈ w.log ∧ K = K0.shift n
  ev : EvInv w

/-- The elements of `i` are available on the backend's device or in CPU memory. -/
def Avail (b : Backend V) (w : World V) (i : Nat) : Prop := (cpuBuf w i).isSome ∨ (b.isGpu = true ∧ (w.dev i).isSome)

theorem const_val {g : Graph V} (h : WF g) {i : Nat} (hi : i < g.length) (hc : g.ctx i = .const) :
    ∃ l, (g.nd i).val = some l ∧ (l.length : Int) = prod (g.shape i) ∧ NonNeg (g.shape i) := by
  have := h i hi
  unfold NodeOK at this
  have hc' : (g.nd i).ctx = .const := hc
  rw [hc'] at this
  obtain ⟨l, h1, h2, h3, _⟩ := this
  exact ⟨l, h1, h2, h3⟩

theorem nonconst_val {g : Graph V} (h : WF g) {i : Nat} (hi : i < g.length) (hc : g.ctx i ≠ .const) : (g.nd i).val = none := by
  have := h i hi
  unfold NodeOK at this
  cases hcc : (g.nd i).ctx <;> simp only [hcc] at this
  case const => exact absurd hcc hc
  case unary => rw [this.2.2]; rfl
  case binary => rw [this.2.2.2.2]; rfl
  case sum => rw [this.2.2]; rfl
  case reshape => rw [this.2.2.2.2.2]; rfl
  case broadcast => rw [this.2.2]; rfl
  case slice => rw [this.2.2]; rfl
  case transpose => rw [this.2.2]; rfl
  case contiguous => rw [this.2]; rfl
  case pad => rw [this.2.2]; rfl
  case dilate => rw [this.2.2.2]; rfl

theorem den_const_flatten (A : Scalar V) {g : Graph V} (h : WF g) {i : Nat} (hi : i < g.length) {l : List V} (hv : (g.nd i).val = some l) :
    (den A g i).flatten = l := by
  have hc : g.ctx i = .const := by
    by_cases hc : g.ctx i = .const
    · exact hc
    · rw [nonconst_val h hi hc] at hv; cases hv
  obtain ⟨l', h1, h2, h3⟩ := const_val h hi hc
  rw [hv] at h1; cases h1
  rw [den_eq A h hi]
  have hc' : (g.nd i).ctx = .const := hc
  simp only [denStep, denCtx, hc', hv, Option.getD_some]
  exact flatten_ofFlat h3 h2

theorem bufLen_eq {w : World V} (h : WF w.g) {i : Nat} (hi : i < w.g.length) : bufLen w i = prod (w.g.shape i) := by
  unfold bufLen
  by_cases hc : w.g.ctx i = .const
  · obtain ⟨l, h1, h2, _⟩ := const_val h hi hc
    rw [h1]; exact h2
  · rw [nonconst_val h hi hc]

theorem cpuBuf_ok {b : Backend V} {w : World V} (h : WInv b w) {i : Nat} (hi : i < w.g.length) {l : List V} (hl : cpuBuf w i = some l) :
    l = (den b.A w.g i).flatten := by
  unfold cpuBuf at hl
  cases hc : w.cpu i with
  | some l' => rw [hc] at hl; cases hl; exact (h.cpu i _ hc).2
  | none =>
    rw [hc, Option.none_or] at hl
    exact (den_const_flatten b.A h.wf hi hl).symm

theorem avail_const {b : Backend V} {w : World V} (h : WF w.g) {i : Nat} (hi : i < w.g.length) (hc : w.g.ctx i = .const) : (cpuBuf w i).isSome := by
  obtain ⟨l, h1, _⟩ := const_val h hi hc
  unfold cpuBuf
  rw [h1]; cases w.cpu i <;> rfl

theorem flatten_len {b : Backend V} {w : World V} (h : WInv b w) {i : Nat} (hi : i < w.g.length) :
    (((den b.A w.g i).flatten.length : Nat) : Int) = prod (w.g.shape i) := by
  have h1 := den_shape b.A h.wf hi
  have h2 := h.nn i hi
  rw [length_flatten (by rw [h1]; exact h2), h1]
  have := h2.prod_nonneg
  omega

/-- What one kernel invocation changes. -/
structure Ran (b : Backend V) (w w' : World V) (out : Nat) : Prop where
  eq : ∃ cpu dev ev, w' = { w with cpu := cpu, dev := dev, tick := w.tick + 1, ev := ev }
  cpu : ∀ i l, w'.cpu i = some l → i < w.g.length ∧ l = (den b.A w.g i).flatten
  dev : ∀ i l, w'.dev i = some l → i < w.g.length ∧ l = (den b.A w.g i).flatten
  cpuMono : ∀ i, (w.cpu i).isSome → (w'.cpu i).isSome
  devMono : ∀ i, (w.dev i).isSome → (w'.dev i).isSome
  cpuOnly : ∀ i, (w'.cpu i).isSome → (w.cpu i).isSome ∨ i = out
  avail : Avail b w' out
  ev : EvInv w'

theorem upd_same {α : Type} (f : Nat → Option α) (i : Nat) (v : α) : upd f i v i = some v := by simp [upd]
theorem upd_ne {α : Type} (f : Nat → Option α) {i j : Nat} (v : α) (h : j ≠ i) : upd f i v j = f j := by simp [upd, h]

theorem mapM_some {α β : Type} {l : List α} {f : α → Option β} {h : α → β} (hf : ∀ x ∈ l, f x = some (h x)) : l.mapM f = some (l.map h) := by
  induction l with
  | nil => rfl
  | cons a l ih =>
    rw [List.mapM_cons, hf a (by simp), ih (fun x hx => hf x (by simp [hx]))]
    rfl

theorem foldl_fillCpu {A : Scalar V} {ins : List Nat} {w : World V} (h : ∀ i ∈ ins, (cpuBuf w i).isSome) : ins.foldl (fillCpu A) w = w := by
  induction ins with
  | nil => rfl
  | cons i ins ih =>
    have : fillCpu A w i = w := by
      unfold fillCpu
      obtain ⟨l, hl⟩ := Option.isSome_iff_exists.1 (h i (by simp))
      rw [hl]
    rw [List.foldl_cons, this]
    exact ih (fun j hj => h j (by simp [hj]))

theorem invoke_cpu {b : Backend V} {w : World V} (h : WInv b w) (hg : b.isGpu = false) {sch : Schedule} {K : Kernel} {out : Nat} {ins : List Nat}
    (ho : out < w.g.length) (hni : out ∉ ins) (hp : K.params.length = (out :: ins).length)
    (hin : ∀ i ∈ ins, i < w.g.length ∧ (cpuBuf w i).isSome)
    (hrun : ∀ o : List V, (o.length : Int) = prod (w.g.shape out) →
      ∃ ws, b.run w.tick (machine b K o (ins.map fun i => (den b.A w.g i).flatten)) sch K.body = some ws ∧ ws.Perm (storesOf b.A w.g out)) :
    ∃ w', invoke b w sch K out ins = .ok w' ∧ Ran b w w' out := by
  have hbl : bufLen w out = prod (w.g.shape out) := bufLen_eq h.wf ho
  have hnn := h.nn out ho
  obtain ⟨o, cpu1, hcpu1, hw1, hol⟩ : ∃ o cpu1, fillCpu b.A w out = { w with cpu := cpu1 } ∧
      (cpuBuf { w with cpu := cpu1 } out = some o ∧ ∀ i, i ≠ out → cpu1 i = w.cpu i) ∧ (o.length : Int) = prod (w.g.shape out) := by
    cases hb : cpuBuf w out with
    | some l =>
      refine ⟨l, w.cpu, by simp [fillCpu, hb], ⟨hb, fun _ _ => rfl⟩, ?_⟩
      rw [cpuBuf_ok h ho hb]
      exact flatten_len h ho
    | none =>
      refine ⟨List.replicate (bufLen w out).toNat (b.A.host 0), upd w.cpu out (List.replicate (bufLen w out).toNat (b.A.host 0)), by simp [fillCpu, hb],
        ⟨by simp [cpuBuf, upd_same], fun i hi => upd_ne _ _ hi⟩, ?_⟩
      have := hnn.prod_nonneg
      rw [List.length_replicate, hbl]; omega
  have hin1 : ∀ i ∈ ins, cpuBuf { w with cpu := cpu1 } i = some (den b.A w.g i).flatten := by
    intro i hi
    obtain ⟨h1, h2⟩ := hin i hi
    obtain ⟨l, hl⟩ := Option.isSome_iff_exists.1 h2
    have hne : i ≠ out := by rintro rfl; exact hni hi
    have := cpuBuf_ok h h1 hl
    rw [← this, ← hl]
    simp only [cpuBuf, hw1.2 i hne]
  obtain ⟨ws, hws, hperm⟩ := hrun o hol
  have hfold : (out :: ins).foldl (fillCpu b.A) w = { w with cpu := cpu1 } := by
    rw [List.foldl_cons, hcpu1]
    exact foldl_fillCpu (fun i hi => by rw [hin1 i hi]; rfl)
  refine ⟨{ w with cpu := upd cpu1 out (applyWrites o ws), tick := w.tick + 1 }, ?_, ?_⟩
  · simp only [invoke, if_neg hni, if_neg (not_not.2 hp), hg, hfold, hw1.1, mapM_some hin1, hws, bind, Except.bind, pure, Except.pure]
    simp [hws]
  · have hout : applyWrites o ws = (den b.A w.g out).flatten := applyWrites_stores h.wf ho hnn hperm hol
    refine ⟨⟨_, _, _, rfl⟩, ?_, h.dev, ?_, fun _ hd => hd, ?_, ?_, ?_⟩
    · intro i l hl
      simp only at hl
      by_cases hi : i = out
      · subst hi; rw [upd_same] at hl; cases hl; exact ⟨ho, hout⟩
      · rw [upd_ne _ _ hi, hw1.2 i hi] at hl; exact h.cpu i l hl
    · intro i hi
      simp only
      by_cases he : i = out
      · subst he; rw [upd_same]; rfl
      · rw [upd_ne _ _ he, hw1.2 i he]; exact hi
    · intro i hi
      simp only at hi
      by_cases he : i = out
      · exact Or.inr he
      · rw [upd_ne _ _ he, hw1.2 i he] at hi; exact Or.inl hi
    · left; simp [cpuBuf, upd_same]
    · refine h.ev.mono (fun i hi => ?_)
      unfold cpuBuf at *
      simp only
      by_cases he : i = out
      · subst he; rw [upd_same]; rfl
      · rw [upd_ne _ _ he, hw1.2 i he]; exact hi

theorem alloc_some {b : Backend V} {w : World V} {i : Nat} {l : List V} (h : w.dev i = some l) : alloc b w i = .ok w := by
  unfold alloc; rw [h]

theorem alloc_none {b : Backend V} {w : World V} {i : Nat} (h : w.dev i = none) (hp : ¬ bufLen w i ≤ 0) :
    alloc b w i = .ok { w with dev := upd w.dev i ((List.range (bufLen w i).toNat).map b.junk), ev := w.ev ++ [.alloc i (bufLen w i)] } := by
  unfold alloc; rw [h]; simp only [if_neg hp]

theorem toDev_eq {b : Backend V} {w w' : World V} {p : Nat × Nat} (h : alloc b w p.1 = .ok w') : toDev b w p = .ok (htod w' p.1 p.2) := by
  unfold toDev; rw [h]; rfl

theorem htod_some {w : World V} {i k : Nat} {l : List V} (h : cpuBuf w i = some l) (hk : k ≠ 0) : htod w i k = { w with dev := upd w.dev i l, ev := w.ev ++ [.copyIn i] } := by
  unfold htod; rw [h]; simp only [if_pos hk]

theorem htod_none {w : World V} {i k : Nat} (h : cpuBuf w i = none) : htod w i k = w := by
  unfold htod; rw [h]

theorem htod_zero {w : World V} {i : Nat} : htod w i 0 = w := by
  unfold htod; split <;> simp

theorem foldlM_toDev {b : Backend V} {w : World V} (h : WInv b w) (out : Nat) (ps : List (Nat × Nat)) : ∀ (d : Nat → Option (List V)) (ev : List DevEvent),
    EvSt (fun i => (cpuBuf w i).isSome) (some out) d ev →
    (∀ j ≠ out, ∀ l, d j = some l → j < w.g.length ∧ l = (den b.A w.g j).flatten) →
    (∀ p ∈ ps, p.2 ≠ 0 ∧ p.1 ≠ out ∧ p.1 < w.g.length ∧ 0 < prod (w.g.shape p.1) ∧ ((cpuBuf w p.1).isSome ∨ (d p.1).isSome)) →
    ∃ d' ev', ps.foldlM (toDev b) { w with dev := d, ev := ev } = .ok { w with dev := d', ev := ev' } ∧ EvSt (fun i => (cpuBuf w i).isSome) (some out) d' ev' ∧
      (∀ p ∈ ps, d' p.1 = some (den b.A w.g p.1).flatten) ∧
      (∀ j, j ∉ ps.map (·.1) → d' j = d j) ∧ (∀ j, (d j).isSome → (d' j).isSome) := by
  induction ps with
  | nil => intro d ev hev _ _; exact ⟨d, ev, rfl, hev, by simp, fun _ _ => rfl, fun _ h => h⟩
  | cons p ps ih =>
    intro d ev hev hd hp
    obtain ⟨hk, hne, hlt, hsz, hav⟩ := hp p (by simp)
    have hstep : ∃ d1 ev1, toDev b { w with dev := d, ev := ev } p = .ok { w with dev := d1, ev := ev1 } ∧ EvSt (fun i => (cpuBuf w i).isSome) (some out) d1 ev1 ∧
        d1 p.1 = some (den b.A w.g p.1).flatten ∧ ∀ j ≠ p.1, d1 j = d j := by
      have hbl : bufLen { w with dev := d, ev := ev } p.1 = prod (w.g.shape p.1) := bufLen_eq (w := { w with dev := d, ev := ev }) h.wf hlt
      cases hdp : d p.1 with
      | some l =>
        have hl := (hd p.1 hne l hdp).2
        rw [toDev_eq (alloc_some (w := { w with dev := d, ev := ev }) hdp)]
        cases hc : cpuBuf w p.1 with
        | none => exact ⟨d, ev, by rw [htod_none (w := { w with dev := d, ev := ev }) hc], hev, by rw [hdp, hl], fun _ _ => rfl⟩
        | some l' =>
          refine ⟨_, _, by rw [htod_some (w := { w with dev := d, ev := ev }) hc hk], hev.copyIn (by rw [hdp]; rfl) (by rw [hc]; rfl) _, ?_, fun j hj => upd_ne _ _ hj⟩
          rw [upd_same, cpuBuf_ok h hlt hc]
      | none =>
        rw [toDev_eq (alloc_none (w := { w with dev := d, ev := ev }) hdp (by rw [hbl]; omega))]
        rcases hav with hc | hc
        · obtain ⟨l', hc⟩ := Option.isSome_iff_exists.1 hc
          refine ⟨_, _, congrArg Except.ok (htod_some (w := { w with dev := upd d p.1 _, ev := _ }) (l := l') hc hk),
            hev.allocCopy hdp (by rw [hbl]; exact hsz) _ _ (by rw [hc]; rfl), ?_, fun j hj => ?_⟩
          · rw [upd_same, cpuBuf_ok h hlt hc]
          · simp only [upd_ne _ _ hj]
        · rw [hdp] at hc; cases hc
    obtain ⟨d1, ev1, e1, hev1, h1, h2⟩ := hstep
    have hmono : ∀ j, (d j).isSome → (d1 j).isSome := by
      intro j hj
      by_cases he : j = p.1
      · rw [he, h1]; rfl
      · rw [h2 j he]; exact hj
    obtain ⟨d', ev', e2, hev', h3, h4, h5⟩ := ih d1 ev1 hev1 (by
      intro j hj l hl
      by_cases he : j = p.1
      · rw [he, h1] at hl; cases hl; exact ⟨he ▸ hlt, by rw [he]⟩
      · rw [h2 j he] at hl; exact hd j hj l hl) (by
      intro q hq
      obtain ⟨a1, a2, a3, a4, a5⟩ := hp q (by simp [hq])
      exact ⟨a1, a2, a3, a4, a5.imp_right (hmono _)⟩)
    refine ⟨d', ev', ?_, hev', ?_, ?_, fun j hj => h5 j (hmono j hj)⟩
    · rw [List.foldlM_cons, e1]; exact e2
    · intro q hq
      rcases List.mem_cons.1 hq with rfl | hq
      · by_cases hm : q.1 ∈ ps.map (·.1)
        · obtain ⟨r, hr, e⟩ := List.mem_map.1 hm
          rw [← e]; exact h3 r hr
        · rw [h4 _ hm, h1]
      · exact h3 q hq
    · intro j hj
      simp only [List.map_cons, List.mem_cons, not_or] at hj
      rw [h4 j hj.2, h2 j hj.1]

theorem invoke_gpu {b : Backend V} {w : World V} (h : WInv b w) (hg : b.isGpu = true) {sch : Schedule} {K : Kernel} {out : Nat} {ins : List Nat}
    (ho : out < w.g.length) (hni : out ∉ ins) (hp : K.params.length = (out :: ins).length)
    (hsz : ∀ i ∈ out :: ins, 0 < prod (w.g.shape i)) (hlo : launchOK sch = true)
    (hin : ∀ i ∈ ins, i < w.g.length ∧ Avail b w i)
    (hrun : ∀ o : List V, (o.length : Int) = prod (w.g.shape out) →
      ∃ ws, b.run w.tick (machine b K o (ins.map fun i => (den b.A w.g i).flatten)) sch K.body = some ws ∧ ws.Perm (storesOf b.A w.g out)) :
    ∃ w', invoke b w sch K out ins = .ok w' ∧ Ran b w w' out := by
  have hbl : bufLen w out = prod (w.g.shape out) := bufLen_eq h.wf ho
  have hnn := h.nn out ho
  have hso := hsz out (by simp)
  obtain ⟨o, d0, ev0, e0, hev0, hd0, hd0', hol⟩ : ∃ o d0 ev0, toDev b w (out, 0) = .ok { w with dev := d0, ev := ev0 } ∧
      EvSt (fun i => (cpuBuf w i).isSome) (some out) d0 ev0 ∧ d0 out = some o ∧ (∀ j ≠ out, d0 j = w.dev j) ∧
      (o.length : Int) = prod (w.g.shape out) := by
    cases hd : w.dev out with
    | some l =>
      refine ⟨l, w.dev, w.ev, ?_, EvSt.weaken h.ev, hd, fun _ _ => rfl, ?_⟩
      · rw [toDev_eq (p := (out, 0)) (alloc_some hd), htod_zero]
      · rw [(h.dev out l hd).2]; exact flatten_len h ho
    | none =>
      refine ⟨(List.range (bufLen w out).toNat).map b.junk, upd w.dev out ((List.range (bufLen w out).toNat).map b.junk), w.ev ++ [.alloc out (bufLen w out)], ?_,
        EvSt.alloc h.ev hd (by rw [hbl]; exact hso) _ (.inl rfl), upd_same _ _ _, fun j hj => upd_ne _ _ hj, ?_⟩
      · rw [toDev_eq (p := (out, 0)) (alloc_none hd (by rw [hbl]; omega)), htod_zero]
      · rw [List.length_map, List.length_range, hbl]; omega
  obtain ⟨d', ev', e1, hev', h3, h4, h5⟩ := foldlM_toDev h out (ins.zipIdx 1) d0 ev0 hev0 (by
      intro j hj l hl
      rw [hd0' j hj] at hl; exact h.dev j l hl) (by
      intro p hp
      have hk := (List.mem_zipIdx hp)
      have hm : p.1 ∈ ins := by rw [hk.2.2]; exact List.getElem_mem _
      have hne : p.1 ≠ out := by intro e; exact hni (e ▸ hm)
      refine ⟨by omega, hne, (hin _ hm).1, hsz _ (by simp [hm]), ?_⟩
      rw [hd0' _ hne]
      exact (hin _ hm).2.imp_right And.right)
  have hmap : (ins.zipIdx 1).map (·.1) = ins := by
    apply List.ext_getElem (by simp)
    intro k h1 h2; simp
  have hdo : d' out = some o := by rw [h4 out (by rw [hmap]; exact hni), hd0]
  have hdi : ∀ i ∈ ins, d' i = some (den b.A w.g i).flatten := by
    intro i hi
    rw [← hmap] at hi
    obtain ⟨p, hp, rfl⟩ := List.mem_map.1 hi
    exact h3 p hp
  have hfold : (out :: ins).zipIdx.foldlM (toDev b) w = .ok { w with dev := d', ev := ev' } := by
    rw [List.zipIdx_cons, List.foldlM_cons, e0]; exact e1
  obtain ⟨ws, hws, hperm⟩ := hrun o hol
  have hout : applyWrites o ws = (den b.A w.g out).flatten := applyWrites_stores h.wf ho hnn hperm hol
  refine ⟨{ w with dev := upd d' out (applyWrites o ws), tick := w.tick + 1, ev := ev' ++ [.launch out ins] }, ?_, ⟨_, _, _, rfl⟩, h.cpu, ?_, fun _ hd => hd, ?_, fun _ hi => Or.inl hi, ?_, ?_⟩
  · simp only [invoke, if_neg hni, if_neg (not_not.2 hp), hg, if_true, hfold, hdo, mapM_some hdi, gpuRun, hlo, hws, bind, Except.bind, pure, Except.pure]
  · intro i l hl
    simp only at hl
    by_cases hi : i = out
    · subst hi; rw [upd_same] at hl; cases hl; exact ⟨ho, hout⟩
    · rw [upd_ne _ _ hi] at hl
      by_cases hm : i ∈ ins
      · rw [hdi i hm] at hl; cases hl; exact ⟨(hin i hm).1, rfl⟩
      · rw [h4 i (by rw [hmap]; exact hm), hd0' i hi] at hl; exact h.dev i l hl
  · intro i hi
    simp only
    by_cases he : i = out
    · subst he; rw [upd_same]; rfl
    · rw [upd_ne _ _ he]; exact h5 i (by rw [hd0' i he]; exact hi)
  · right; exact ⟨hg, by simp [upd_same]⟩
  · exact hev'.launch (by rw [hdo]; rfl) (fun i hi => by rw [hdi i hi]; rfl) hni _

theorem invoke_ok {b : Backend V} {w : World V} (h : WInv b w) {sch : Schedule} {K : Kernel} {out : Nat} {ins : List Nat}
    (ho : out < w.g.length) (hni : out ∉ ins) (hp : K.params.length = (out :: ins).length)
    (hsz : b.isGpu = true → ∀ i ∈ out :: ins, 0 < prod (w.g.shape i)) (hlo : b.isGpu = true → launchOK sch = true)
    (hin : ∀ i ∈ ins, i < w.g.length ∧ Avail b w i)
    (hrun : ∀ o : List V, (o.length : Int) = prod (w.g.shape out) →
      ∃ ws, b.run w.tick (machine b K o (ins.map fun i => (den b.A w.g i).flatten)) sch K.body = some ws ∧ ws.Perm (storesOf b.A w.g out)) :
    ∃ w', invoke b w sch K out ins = .ok w' ∧ Ran b w w' out := by
  cases hg : b.isGpu with
  | true => exact invoke_gpu h hg ho hni hp (hsz hg) (hlo hg) hin hrun
  | false => exact invoke_cpu h hg ho hni hp (fun i hi => ⟨(hin i hi).1, (hin i hi).2.resolve_right (by simp [hg])⟩) hrun

/-! ### one function -/

theorem mem_of_lookup {α β : Type} [BEq α] [LawfulBEq α] {l : List (α × β)} {k : α} {v : β} (h : l.lookup k = some v) : (k, v) ∈ l := by
  induction l with
  | nil => cases h
  | cons p l ih =>
    obtain ⟨a, c⟩ := p
    rw [List.lookup_cons] at h
    split at h
    · rename_i he
      have := eq_of_beq he
      cases h; subst this; simp
    · exact List.mem_cons_of_mem _ (ih h)

/-- What `materialize` relies on about the functions of one conversion. -/
structure TblGood [Lim] (g : Graph V) (t : Tbl) (a : Nat) (S : Nat → Prop) : Prop where
  entry : ∀ f, S f → f ≤ a ∧ g.ctx f ≠ .const ∧ ∃ F, t f = some F ∧ EntryOK g f F ∧ ∀ d ∈ Algo.funcRefs F.expr, S d ∧ d < f

theorem schedule_ok [Lim] {isGpu : Bool} {g : Graph V} {f : Nat} {F : Func} (hE : EntryOK g f F) : ∃ sch, Sched.schedule isGpu F = .ok sch := by
  cases isGpu with
  | false =>
    obtain ⟨sch, _, _, e, _⟩ := cpu_loops (F := F)
    exact ⟨sch, by simpa [Sched.schedule] using e⟩
  | true =>
    by_cases h0 : F.outLoops.length = 0
    · have hol : F.outLoops = [] := List.eq_nil_of_length_eq_zero h0
      exact ⟨Sched.init F, by simp [Sched.schedule, Sched.gpu, spatials_init, hol, pure, Except.pure]⟩
    · have hnames : F.outLoops.map (·.name) = (List.range (g.ndim f)).map (VName.loop false) := by rw [hE.loops, outLoops_names]
      obtain ⟨sch, _, _, _, _, _, hsch, _⟩ := gpu_form (F := F) h0 (by rw [hnames]; exact loopNames_nodup _) (by
        rw [hE.loops]; intro l hl; exact (mem_outLoops hl).2)
      exact ⟨sch, by simpa [Sched.schedule] using hsch⟩

/-- What executing functions changes. -/
structure Step (b : Backend V) (w w' : World V) : Prop where
  inv : WInv b w'
  g : w'.g = w.g
  log : w'.log = w.log
  grad : w'.grad = w.grad
  cpuMono : ∀ i, (w.cpu i).isSome → (w'.cpu i).isSome
  devMono : ∀ i, (w.dev i).isSome → (w'.dev i).isSome

theorem Step.avail {b : Backend V} {w w' : World V} (h : Step b w w') {i : Nat} (ha : Avail b w i) : Avail b w' i := by
  refine ha.imp (fun hc => ?_) (fun hd => ⟨hd.1, h.devMono i hd.2⟩)
  unfold cpuBuf at *
  rw [h.g]
  cases hc' : w.cpu i with
  | some l =>
    obtain ⟨l', hl'⟩ := Option.isSome_iff_exists.1 (h.cpuMono i (by rw [hc']; rfl))
    rw [hl']; rfl
  | none =>
    rw [hc', Option.none_or] at hc
    cases w'.cpu i with
    | some l => rfl
    | none => exact hc

theorem Step.refl {b : Backend V} {w : World V} (h : WInv b w) : Step b w w := ⟨h, rfl, rfl, rfl, fun _ h => h, fun _ h => h⟩

theorem Step.trans {b : Backend V} {w w' w'' : World V} (h : Step b w w') (k : Step b w' w'') : Step b w w'' :=
  ⟨k.inv, k.g.trans h.g, k.log.trans h.log, k.grad.trans h.grad, fun i hi => k.cpuMono i (h.cpuMono i hi), fun i hi => k.devMono i (h.devMono i hi)⟩

/-- Array `i` has elements (otherwise the CUDA driver refuses to allocate its buffer). -/
def SizeOK (b : Backend V) (g : Graph V) (a : Nat) : Prop := b.isGpu = true → ∀ i, Reach g a i → 0 < prod (g.shape i)

theorem runFunc_ok {b : Backend V} (hb : Faithful b) {w : World V} (h : WInv b w) {t : Tbl} {a f : Nat} {S : Nat → Prop} (ht : TblGood w.g t a S) (hf : S f)
    {F : Func} (hF : t f = some F) {sch : Schedule} (hsch : Sched.schedule b.isGpu F = .ok sch)
    (hsz : b.isGpu = true → ∀ i, (i = f ∨ i ∈ Algo.funcRefs F.expr ∨ i ∈ Algo.bufRefs F.expr) → 0 < prod (w.g.shape i) ∧ (i = f → w.g.ctx f ≠ .const → GridOK (launchGrid (w.g.shape i))))
    (hav : ∀ d ∈ Algo.funcRefs F.expr, Avail b w d) (hnc : NoCollision w.log)
    (hlog : ∀ q, plan1 w.g t (a + 2) (f, sch) = some q → q ∈ w.log) :
    ∃ w', runFunc b t (a + 2) w (f, sch) = .ok w' ∧ Step b w w' ∧ Avail b w' f := by
  obtain ⟨hfa, hfc, F', hF', hE, hrefs⟩ := ht.entry f hf
  rw [hF] at hF'; cases hF'
  have hS : ∀ f, S f → ∃ F, t f = some F ∧ ∀ d ∈ Algo.funcRefs F.expr, S d ∧ d < f := fun f hf => by
    obtain ⟨_, _, F, h1, _, h2⟩ := ht.entry f hf; exact ⟨F, h1, h2⟩
  obtain ⟨key, hkey⟩ := cacheKey_ok (g := w.g) hS (fuel := a + 2) hf hF (by omega) sch
  have houts : outBufs t (Algo.args F.expr).2 = .ok ((Algo.args F.expr).2.map id) := by
    apply mapM_ok
    intro d hd
    obtain ⟨_, _, D, hD, hED, _⟩ := ht.entry d (hrefs d (mem_dedup.1 hd)).1
    simp only [hD, pure, Except.pure, hED.buffer, id]
  rw [List.map_id] at houts
  have hro : RefsOK w.g t F := by
    intro d hd
    obtain ⟨_, _, D, hD, hED, _⟩ := ht.entry d (hrefs d hd).1
    exact ⟨D, hD, hED.shape⟩
  have hmm : ∀ {o : List V} {n n' : Nat} {K : Kernel}, codegen w.g t F sch (argsOf F) n = .ok (K, n') →
      MemOK w.g (argsOf F) (machine b K o (((argsOf F).bufs ++ (argsOf F).fncs).map fun i => (den b.A w.g i).flatten)) (denRd b.A w.g) :=
    fun hK => memOK_machine h.wf hE hK
  -- code generation succeeds for every counter
  have hgen : ∀ n, ∃ K n', codegen w.g t F sch (argsOf F) n = .ok (K, n') := by
    intro n
    obtain ⟨s, k, n', hg, _⟩ := genRoot_gen (dt := F.outDtype) hE.wf (argsOK_of hro) n
    exact ⟨_, n', by simp only [codegen, hg, bind, Except.bind, pure, Except.pure]; rfl⟩
  -- running a kernel generated for any counter
  have hinv : ∀ (w1 : World V), WInv b w1 → w1.g = w.g → (∀ d ∈ Algo.funcRefs F.expr, Avail b w1 d) → ∀ n n' K, codegen w.g t F sch (argsOf F) n = .ok (K, n') →
      ∃ w', invoke b w1 sch K F.outBuffer ((Algo.args F.expr).1 ++ (Algo.args F.expr).2) = .ok w' ∧ Ran b w1 w' f := by
    intro w1 h1 hg1 hav1 n n' K hK
    rw [hE.buffer]
    have hlt := hE.lt
    apply invoke_ok h1 (by rw [hg1]; exact hlt)
    · intro hm
      rcases List.mem_append.1 hm with hm | hm
      · exact hfc (RootWF.bufs hE.wf f (mem_dedup.1 hm)).2.2
      · exact Nat.lt_irrefl _ (hrefs f (mem_dedup.1 hm)).2
    · rw [codegen_params hK]; simp [params, argsOf]
    · intro hgpu i hi
      rw [hg1]
      apply fun h => (hsz hgpu i h).1
      simp only [List.mem_cons, List.mem_append] at hi
      rcases hi with rfl | hi | hi
      · exact Or.inl rfl
      · exact Or.inr (Or.inr (mem_dedup.1 hi))
      · exact Or.inr (Or.inl (mem_dedup.1 hi))
    · intro hgpu
      rw [hgpu] at hsch
      exact (launchOK_iff hE hsch).2 ((hsz hgpu f (.inl rfl)).2 rfl hfc)
    · intro i hi
      rcases List.mem_append.1 hi with hi | hi
      · have := RootWF.bufs hE.wf i (mem_dedup.1 hi)
        exact ⟨by rw [hg1]; exact this.1, Or.inl (avail_const (b := b) h1.wf (by rw [hg1]; exact this.1) (by rw [hg1]; exact this.2.2))⟩
      · have h2 := hrefs i (mem_dedup.1 hi)
        obtain ⟨_, _, D, hD, hED, _⟩ := ht.entry i h2.1
        exact ⟨by rw [hg1]; exact hED.lt, hav1 i (mem_dedup.1 hi)⟩
    · intro o ho
      rw [hg1] at ho ⊢
      obtain ⟨sch', K', n'', e1, e2, _, hall⟩ := kernel_any (b := b) (m := machine b K o (((argsOf F).bufs ++ (argsOf F).fncs).map fun i => (den b.A w.g i).flatten))
        h.wf hE hro (hmm hK) ho (h.nn f hlt) n
      rw [hsch] at e1; cases e1
      rw [hK] at e2; cases e2
      exact hall _ (hb _ _ _ _)
  have hfin : ∀ (w1 w' : World V), WInv b w1 → w1.g = w.g → w1.log = w.log → w1.cpu = w.cpu → w1.dev = w.dev → w1.grad = w.grad → Ran b w1 w' f →
      Step b w w' ∧ Avail b w' f := by
    intro w1 w' h1 e1 e2 e3 e4 e5 hr
    obtain ⟨c, d, e, rfl⟩ := hr.eq
    refine ⟨⟨⟨?_, ?_, hr.cpu, hr.dev, h1.cache, hr.ev⟩, e1, e2, e5, ?_, ?_⟩, hr.avail⟩
    · exact h1.wf
    · exact h1.nn
    · intro i hi; exact hr.cpuMono i (by rw [e3]; exact hi)
    · intro i hi; exact hr.devMono i (by rw [e4]; exact hi)
  obtain ⟨K0, n0, hK0⟩ := hgen 0
  have hL := LvOK.schedule hsch
  have hlog' : (key, codegen w.g t F sch (argsOf F) 0) ∈ w.log := by
    apply hlog
    simp only [plan1, hF, hkey]; rfl
  unfold runFunc
  simp only [hF, houts, hkey, bind, Except.bind]
  cases hc : w.cache.lookup key with
  | some K =>
    obtain ⟨K1, n1, n, hm, rfl⟩ := h.cache key K (mem_of_lookup hc)
    have heq := hnc _ hm _ hlog' rfl
    simp only at heq
    have hKn : codegen w.g t F sch (argsOf F) (0 + n) = .ok (K1.shift n, n1 + n) := by
      rw [codegen_shift hL, ← heq]; rfl
    have hw1 : WInv b { w with hits := fun k => if k = key then w.hits k + 1 else w.hits k } := ⟨h.wf, h.nn, h.cpu, h.dev, h.cache, h.ev⟩
    obtain ⟨w', e, hr⟩ := hinv _ hw1 rfl hav _ _ _ hKn
    have := hfin _ w' hw1 rfl rfl rfl rfl rfl hr
    exact ⟨w', e, this⟩
  | none =>
    have hKt : codegen w.g t F sch (argsOf F) (0 + w.tmp) = .ok (K0.shift w.tmp, n0 + w.tmp) := by
      rw [codegen_shift hL, hK0]; rfl
    rw [Nat.zero_add] at hKt
    have hKt' : codegen w.g t F sch ⟨(Algo.args F.expr).1, (Algo.args F.expr).2⟩ w.tmp = .ok (K0.shift w.tmp, n0 + w.tmp) := hKt
    simp only [hKt', pure, Except.pure]
    have hw1 : WInv b { w with tmp := n0 + w.tmp, cache := w.cache ++ [(key, K0.shift w.tmp)], hits := fun k => if k = key then 0 else w.hits k } := by
      refine ⟨h.wf, h.nn, h.cpu, h.dev, ?_, h.ev⟩
      intro k K hm
      rcases List.mem_append.1 hm with hm | hm
      · exact h.cache k K hm
      · simp only [List.mem_singleton, Prod.mk.injEq] at hm
        obtain ⟨rfl, rfl⟩ := hm
        exact ⟨K0, n0, w.tmp, by rw [← hK0]; exact hlog', rfl⟩
    obtain ⟨w', e, hr⟩ := hinv _ hw1 rfl hav _ _ _ hKt
    rw [e]
    have := hfin _ w' hw1 rfl rfl rfl rfl rfl hr
    obtain ⟨hs, ha⟩ := this
    exact ⟨_, rfl, ⟨⟨hs.inv.wf, hs.inv.nn, hs.inv.cpu, hs.inv.dev, hs.inv.cache, hs.inv.ev⟩, hs.g, hs.log, hs.grad, hs.cpuMono, hs.devMono⟩, ha⟩

/-! ### all functions of a conversion -/

theorem convert_good [Lim] {g : Graph V} (h : WF g) {a : Nat} (ha : a < g.length) (hns : NoScalarReshape g a) (hv : (g.ctx a).op.isView = false)
    (hc : g.ctx a ≠ .const) (hS : Small g a := by exact small_none) :
    ∃ funcs t, Algo.convert g a = .ok (funcs, t) ∧ funcs.Nodup ∧ (∃ pre, funcs = pre ++ [a]) ∧ Ordered t funcs ∧ TblGood g t a (· ∈ funcs) ∧
      ∀ f ∈ funcs, Reach g a f := by
  obtain ⟨funcs, t, e, hnd, hpre, hord, hent⟩ := convert_ok h ha hns hv hS
  obtain ⟨_, _, _, _, _, _, hk⟩ := convert_kept h ha hns hc e
  refine ⟨funcs, t, e, hnd, hpre, hord, ⟨fun f hf => ?_⟩, fun f hf => (hent f hf).1⟩
  obtain ⟨hr, F, hF, hE, _⟩ := hent f hf
  refine ⟨hr.le h ha, (hk f hf).1, F, hF, hE, fun d hd => ⟨?_, RootWF.refs_lt hE.wf d hd⟩⟩
  obtain ⟨pre, post, rfl⟩ := List.append_of_mem hf
  exact List.mem_append_left _ (hord pre f post rfl F hF d hd)

theorem schedAll_ok {isGpu : Bool} {g : Graph V} {t : Tbl} {a : Nat} {S : Nat → Prop} (ht : TblGood g t a S) (funcs : List Nat) (hf : ∀ f ∈ funcs, S f) :
    ∃ scheds, schedAll isGpu t funcs = .ok scheds ∧ scheds.length = funcs.length ∧
      ∀ p ∈ funcs.zip scheds, ∃ F, t p.1 = some F ∧ Sched.schedule isGpu F = .ok p.2 := by
  induction funcs with
  | nil => exact ⟨[], rfl, rfl, by simp⟩
  | cons f funcs ih =>
    obtain ⟨ss, e, hl, hp⟩ := ih (fun x hx => hf x (by simp [hx]))
    obtain ⟨_, _, F, hF, hE, _⟩ := ht.entry f (hf f (by simp))
    obtain ⟨sch, hs⟩ := schedule_ok (isGpu := isGpu) hE
    refine ⟨sch :: ss, ?_, by simp [hl], ?_⟩
    · unfold schedAll at *
      rw [List.mapM_cons, e]
      simp only [hF, hs]; rfl
    · intro p hp'
      rw [List.zip_cons_cons, List.mem_cons] at hp'
      rcases hp' with rfl | hp'
      · exact ⟨F, hF, hs⟩
      · exact hp p hp'

theorem runFuncs_ok {b : Backend V} (hb : Faithful b) {t : Tbl} {a : Nat} {g : Graph V} {S : Nat → Prop} (ht : TblGood g t a S) :
    ∀ (ps : List (Nat × Schedule)) (done : List Nat) (w : World V), WInv b w → w.g = g → NoCollision w.log →
    (∀ p ∈ ps, S p.1 ∧ ∃ F, t p.1 = some F ∧ Sched.schedule b.isGpu F = .ok p.2) →
    (b.isGpu = true → ∀ p ∈ ps, ∀ F, t p.1 = some F → ∀ i, (i = p.1 ∨ i ∈ Algo.funcRefs F.expr ∨ i ∈ Algo.bufRefs F.expr) → 0 < prod (g.shape i) ∧ (i = p.1 → g.ctx p.1 ≠ .const → GridOK (launchGrid (g.shape i)))) →
    (∀ p ∈ ps, ∀ q, plan1 g t (a + 2) p = some q → q ∈ w.log) →
    Ordered t (done ++ ps.map (·.1)) → (∀ d ∈ done, Avail b w d) →
    ∃ w', ps.foldlM (runFunc b t (a + 2)) w = .ok w' ∧ Step b w w' ∧ ∀ p ∈ ps, Avail b w' p.1 := by
  intro ps
  induction ps with
  | nil => intro done w h _ _ _ _ _ _ _; exact ⟨w, rfl, Step.refl h, by simp⟩
  | cons p ps ih =>
    intro done w h hg hnc hp hsz hlog ho hd
    obtain ⟨hS, F, hF, hs⟩ := hp p (by simp)
    subst hg
    obtain ⟨w1, e1, s1, a1⟩ := runFunc_ok hb h ht hS hF hs (fun hgpu i hi => hsz hgpu p (by simp) F hF i hi)
      (fun d hd' => hd d (ho done p.1 (ps.map (·.1)) (by simp) F hF d hd')) hnc (fun q hq => hlog p (by simp) q hq)
    obtain ⟨w2, e2, s2, a2⟩ := ih (done ++ [p.1]) w1 s1.inv s1.g (by rw [s1.log]; exact hnc) (fun q hq => hp q (by simp [hq]))
      (fun hgpu q hq => hsz hgpu q (by simp [hq])) (fun q hq r hr => by rw [s1.log]; exact hlog q (by simp [hq]) r hr)
      (by simpa using ho) (by
        intro d hd'
        rcases List.mem_append.1 hd' with hd' | hd'
        · exact s1.avail (hd d hd')
        · simp only [List.mem_singleton] at hd'; rw [hd']; exact a1)
    refine ⟨w2, ?_, s1.trans s2, ?_⟩
    · rw [List.foldlM_cons, e1]; exact e2
    · intro q hq
      rcases List.mem_cons.1 hq with rfl | hq
      · exact s2.avail a1
      · exact a2 q hq

/-- All arrays a kernel of the conversion touches have elements, and those it computes have an acceptable grid. -/
def KernelSizes (g : Graph V) (a : Nat) : Prop := ∀ funcs t, Algo.convert g a = .ok (funcs, t) → ∀ f ∈ funcs, ∀ F, t f = some F →
  ∀ i, (i = f ∨ i ∈ Algo.funcRefs F.expr ∨ i ∈ Algo.bufRefs F.expr) → 0 < prod (g.shape i) ∧ (i = f → g.ctx f ≠ .const → GridOK (launchGrid (g.shape i)))

/-- The part of `Step` that survives the extension of the log. -/
structure MatRes (b : Backend V) (w w' : World V) (a : Nat) : Prop where
  inv : WInv b w'
  g : w'.g = w.g
  log : w'.log = w.log ++ launchLog b.isGpu w.g a
  grad : w'.grad = w.grad
  cpuMono : ∀ i, (w.cpu i).isSome → (w'.cpu i).isSome
  devMono : ∀ i, (w.dev i).isSome → (w'.dev i).isSome
  avail : Avail b w' (base w.g a)

theorem unary_not_const {o : Ops} (h : o.isUnary = true) : o.isConst = false := by cases o <;> revert h <;> decide
theorem binary_not_const {o : Ops} (h : o.isBinary = true) : o.isConst = false := by cases o <;> revert h <;> decide

theorem materialize_nonview {b : Backend V} (hb : Faithful b) {w : World V} (h : WInv b w) {a : Nat} (ha : a < w.g.length) (hv : (w.g.ctx a).op.isView = false)
    (hns : NoScalarReshape w.g a) (hnc : NoCollision (w.log ++ launchLog b.isGpu w.g a))
    (hsz : b.isGpu = true → KernelSizes w.g a) (fuel : Nat) :
    ∃ w', materializeF b (fuel + 1) w a = .ok w' ∧ MatRes b w w' a := by
  have hbase : base w.g a = a := base_nonview hv
  by_cases hc : w.g.ctx a = .const
  · refine ⟨w, ?_, ?_⟩
    · unfold materializeF; rw [hc]; rfl
    · have hl : launchLog b.isGpu w.g a = [] := by unfold launchLog launchLogF; rw [hc]; rfl
      exact ⟨h, rfl, by rw [hl, List.append_nil], rfl, fun _ h => h, fun _ h => h, by rw [hbase]; exact Or.inl (avail_const (b := b) h.wf ha hc)⟩
  · have hcop : (w.g.ctx a).op.isConst = false := by
      cases hcc : w.g.ctx a <;> simp only [Ctx.op] <;> try decide
      · exact absurd hcc hc
      · have := h.wf a ha
        unfold NodeOK at this
        have hcc' : (w.g.nd a).ctx = _ := hcc
        rw [hcc'] at this
        exact unary_not_const this.2.1
      · have := h.wf a ha
        unfold NodeOK at this
        have hcc' : (w.g.nd a).ctx = _ := hcc
        rw [hcc'] at this
        exact binary_not_const this.2.2.1
    obtain ⟨funcs, t, e, hnd, ⟨pre, hpre⟩, hord, htg, hreach⟩ := convert_good h.wf ha hns hv hc
    obtain ⟨scheds, es, hl, hps⟩ := schedAll_ok (isGpu := b.isGpu) htg funcs (fun _ h => h)
    have hlog : launchLog b.isGpu w.g a = (funcs.zip scheds).filterMap (plan1 w.g t (a + 2)) := by
      unfold launchLog launchLogF
      simp only [hcop, hv, e, es]; rfl
    have hmap : (funcs.zip scheds).map (·.1) = funcs := by
      apply List.map_fst_zip; omega
    obtain ⟨w', e', s', av⟩ := runFuncs_ok hb htg (funcs.zip scheds) []
      { w with log := w.log ++ (funcs.zip scheds).filterMap (plan1 w.g t (a + 2)) }
      ⟨h.wf, h.nn, h.cpu, h.dev, fun k K hk => by
        obtain ⟨K0, n0, n, h1, h2⟩ := h.cache k K hk
        exact ⟨K0, n0, n, List.mem_append_left _ h1, h2⟩, h.ev⟩ rfl (by rw [← hlog]; exact hnc)
      (fun p hp => ⟨by rw [← hmap]; exact List.mem_map_of_mem hp, hps p hp⟩)
      (fun hgpu p hp F hF i hi => hsz hgpu funcs t e p.1 (by rw [← hmap]; exact List.mem_map_of_mem hp) F hF i hi)
      (fun p hp q hq => List.mem_append_right _ (List.mem_filterMap.2 ⟨p, hp, hq⟩))
      (by rw [hmap]; exact hord) (by simp)
    refine ⟨w', ?_, s'.inv, s'.g, by rw [s'.log, hlog], s'.grad, s'.cpuMono, s'.devMono, ?_⟩
    · unfold materializeF
      simp only [hcop, hv, e, es, bind, Except.bind]
      exact e'
    · rw [hbase]
      have : a ∈ (funcs.zip scheds).map (·.1) := by rw [hmap, hpre]; simp
      obtain ⟨p, hp, hpa⟩ := List.mem_map.1 this
      rw [← hpa]; exact av p hp

theorem view_not_const {o : Ops} (h : o.isView = true) : o.isConst = false := by cases o <;> revert h <;> decide

theorem view_input {g : Graph V} {a : Nat} (h : (g.ctx a).op.isView = true) (hw : WF g) (ha : a < g.length) : ∃ x, (g.ctx a).inputs = [x] := by
  have hn := hw a ha
  unfold NodeOK at hn
  have hcd : (g.nd a).ctx = g.ctx a := rfl
  rw [hcd] at hn
  cases hc : g.ctx a <;> rw [hc] at h hn <;> simp only [Ctx.op, Ctx.inputs] at *
  case const => exact absurd h (by decide)
  case unary => rw [unary_not_view hn.2.1] at h; cases h
  case binary => rw [binary_not_view hn.2.2.1] at h; cases h
  all_goals exact ⟨_, rfl⟩

theorem launchLogF_fuel {isGpu : Bool} {g : Graph V} (h : WF g) {a : Nat} (ha : a < g.length) {f1 f2 : Nat} (h1 : a < f1) (h2 : a < f2) :
    launchLogF isGpu g f1 a = launchLogF isGpu g f2 a := by
  induction a using Nat.strongRecOn generalizing f1 f2 with
  | ind a ih =>
    obtain ⟨f1, rfl⟩ : ∃ k, f1 = k + 1 := ⟨f1 - 1, by omega⟩
    obtain ⟨f2, rfl⟩ : ∃ k, f2 = k + 1 := ⟨f2 - 1, by omega⟩
    unfold launchLogF
    cases hv : (g.ctx a).op.isView with
    | false => simp
    | true =>
      obtain ⟨x, hx⟩ := view_input hv h ha
      have hlt := h.inputs_lt ha x (by rw [hx]; simp)
      simp only [view_not_const hv, hx]
      rw [ih x hlt (by omega) (f1 := f1) (f2 := f2) (by omega) (by omega)]

theorem launchLog_base {isGpu : Bool} {g : Graph V} (h : WF g) {a : Nat} (ha : a < g.length) : launchLog isGpu g a = launchLog isGpu g (base g a) := by
  induction a using Nat.strongRecOn with
  | ind a ih =>
    cases hv : (g.ctx a).op.isView with
    | false => rw [base_nonview hv]
    | true =>
      obtain ⟨x, hx⟩ := view_input hv h ha
      have hlt := h.inputs_lt ha x (by rw [hx]; simp)
      rw [base_view h ha hv hx, ← ih x hlt (by omega)]
      conv => lhs; unfold launchLog launchLogF
      simp only [view_not_const hv, hv, hx]
      exact launchLogF_fuel h (by omega) (by omega) (by omega)

theorem materializeF_base {b : Backend V} {w : World V} (h : WF w.g) {a : Nat} (ha : a < w.g.length) : ∀ fuel, a < fuel →
    ∃ fuel', materializeF b fuel w a = materializeF b (fuel' + 1) w (base w.g a) := by
  induction a using Nat.strongRecOn with
  | ind a ih =>
    intro fuel hf
    obtain ⟨fuel, rfl⟩ : ∃ k, fuel = k + 1 := ⟨fuel - 1, by omega⟩
    cases hv : (w.g.ctx a).op.isView with
    | false => rw [base_nonview hv]; exact ⟨fuel, rfl⟩
    | true =>
      obtain ⟨x, hx⟩ := view_input hv h ha
      have hlt := h.inputs_lt ha x (by rw [hx]; simp)
      obtain ⟨f', e⟩ := ih x hlt (by omega) fuel (by omega)
      refine ⟨f', ?_⟩
      rw [base_view h ha hv hx, ← e]
      conv => lhs; unfold materializeF
      simp only [view_not_const hv, hv, hx]; rfl

theorem base_base {g : Graph V} (h : WF g) {a : Nat} (ha : a < g.length) : (g.ctx (base g a)).op.isView = false := by
  induction a using Nat.strongRecOn with
  | ind a ih =>
    cases hv : (g.ctx a).op.isView with
    | false => rw [base_nonview hv]; exact hv
    | true =>
      obtain ⟨x, hx⟩ := view_input hv h ha
      have hlt := h.inputs_lt ha x (by rw [hx]; simp)
      rw [base_view h ha hv hx]
      exact ih x hlt (by omega)

/-- `materialize` succeeds, keeps the invariant and makes the base available. -/
theorem materialize_ok {b : Backend V} (hb : Faithful b) {w : World V} (h : WInv b w) {a : Nat} (ha : a < w.g.length)
    (hns : NoScalarReshape w.g (base w.g a)) (hnc : NoCollision (w.log ++ launchLog b.isGpu w.g a))
    (hsz : b.isGpu = true → KernelSizes w.g (base w.g a)) :
    ∃ w', materialize b w a = .ok w' ∧ MatRes b w w' a := by
  have hb' := base_le h.wf ha
  obtain ⟨f', e⟩ := materializeF_base (b := b) h.wf ha (a + 1) (by omega)
  have hv := base_base h.wf ha
  rw [launchLog_base h.wf ha] at hnc
  obtain ⟨w', e', hr⟩ := materialize_nonview hb h (a := base w.g a) (by omega) hv hns hnc hsz f'
  refine ⟨w', by unfold materialize; rw [e]; exact e', hr.inv, hr.g, by rw [launchLog_base h.wf ha]; exact hr.log, hr.grad, hr.cpuMono, hr.devMono, ?_⟩
  have := hr.avail
  rwa [base_nonview hv] at this

/-! ### tolist -/

theorem ensureCpu_ok {b : Backend V} {w : World V} (h : WInv b w) {x : Nat} (hx : x < w.g.length) (ha : Avail b w x) :
    ∃ cpu ev, ensureCpu b w x = .ok { w with cpu := cpu, ev := ev } ∧ WInv b { w with cpu := cpu, ev := ev } ∧ cpuBuf { w with cpu := cpu, ev := ev } x = some (den b.A w.g x).flatten ∧
      ∀ i, (w.cpu i).isSome → (cpu i).isSome := by
  unfold ensureCpu
  cases hc : cpuBuf w x with
  | some l => exact ⟨w.cpu, w.ev, rfl, h, by rw [← cpuBuf_ok h hx hc]; exact hc, fun _ h => h⟩
  | none =>
    rcases ha with ha | ⟨hg, hd⟩
    · rw [hc] at ha; cases ha
    · obtain ⟨l, hl⟩ := Option.isSome_iff_exists.1 hd
      have hlv := (h.dev x l hl).2
      simp only [hg, if_true, hl]
      refine ⟨upd w.cpu x l, w.ev ++ [.copyOut x], rfl, ⟨h.wf, h.nn, ?_, h.dev, h.cache, ?_⟩, by simp [cpuBuf, upd_same, hlv], ?_⟩
      · intro i l' hl'
        simp only at hl'
        by_cases hi : i = x
        · subst hi; rw [upd_same] at hl'; cases hl'; exact ⟨hx, hlv⟩
        · rw [upd_ne _ _ hi] at hl'; exact h.cpu i l' hl'
      · refine (EvSt.copyOut (i := x) h.ev (by rw [hl]; rfl) (by rw [hc]; simp)).mono (fun i hi => ?_)
        unfold cpuBuf at *
        simp only
        by_cases he : i = x
        · subst he; rw [upd_same]; rfl
        · rw [upd_ne _ _ he]; exact hi
      · intro i hi
        by_cases he : i = x
        · subst he; rw [upd_same]; rfl
        · rw [upd_ne _ _ he]; exact hi

/-- `tolist` never fails once the base is available; it is the meaning unless an offset view was reshaped. -/
theorem tolist_ok {b : Backend V} {w : World V} (h : WInv b w) {a : Nat} (ha : a < w.g.length) (hav : Avail b w (base w.g a)) :
    ∃ l cpu ev, tolist b w a = .ok (l, { w with cpu := cpu, ev := ev }) ∧ WInv b { w with cpu := cpu, ev := ev } ∧ (∀ i, (w.cpu i).isSome → (cpu i).isSome) ∧
      (NoOffsetReshape w.g a → l = (den b.A w.g a).toNested) := by
  have hbl : base w.g a < w.g.length := Nat.lt_of_le_of_lt (base_le h.wf ha) ha
  obtain ⟨cpu, ev, e, hi, hc, hm⟩ := ensureCpu_ok h hbl hav
  have hlen : ((den b.A w.g (base w.g a)).flatten).length = (prod (w.g.shape (base w.g a))).toNat := by
    have := flatten_len h hbl; omega
  obtain ⟨l, hl⟩ := toNdlist_ok_of_length b.A h.wf ha hlen
  refine ⟨l, cpu, ev, ?_, hi, hm, fun hno => ?_⟩
  · unfold tolist
    simp only [e, bind, Except.bind, hc, hl]; rfl
  · rw [toNdlist_den b.A h.wf ha hno] at hl
    cases hl; rfl

end Whale
