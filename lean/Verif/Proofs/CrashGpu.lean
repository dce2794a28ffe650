import Verif.Spec.CrashGpu
import Verif.Proofs.Crash
import Verif.Proofs.CrashTrace
/-
A GPU backend after interruptions.
-/
namespace Whale
open Kern Codegen Mat Hist
variable {V : Type}

/-- The world without data. -/
def World.noData (w : World V) : World V := { w with cpu := fun _ => none, dev := fun _ => none, ev := [] }

/-- What device memory holds: complete data, unless the array is in `D` or has a host copy (which is copied before every use). -/
def DevOK (b : Backend V) (D : List Nat) (w : World V) (d : Nat → Option (List V)) : Prop :=
  ∀ i l, d i = some l → i < w.g.length ∧ l.length = (den b.A w.g i).flatten.length ∧ (i ∉ D → cpuBuf w i = none → l = (den b.A w.g i).flatten)

structure DataG (b : Backend V) (D : List Nat) (w : World V) : Prop where
  cpu : ∀ i l, w.cpu i = some l → i < w.g.length ∧ l = (den b.A w.g i).flatten
  dev : DevOK b D w w.dev
  lt : ∀ i ∈ D, i < w.g.length
  nonconst : ∀ i ∈ D, w.g.ctx i ≠ .const
  nocpu : ∀ i ∈ D, w.cpu i = none
  ev : EvX D w w.dev w.ev

theorem cpuBuf_okG {b : Backend V} {D : List Nat} {w : World V} (hw : WF w.g) (h : DataG b D w) {i : Nat} (hi : i < w.g.length) {l : List V} (hl : cpuBuf w i = some l) : l = (den b.A w.g i).flatten := by
  unfold cpuBuf at hl
  cases hc : w.cpu i with
  | some l' => rw [hc] at hl; cases hl; exact (h.cpu i _ hc).2
  | none =>
    rw [hc, Option.none_or] at hl
    exact (den_const_flatten b.A hw hi hl).symm

theorem DevOK.mono {b : Backend V} {D D' : List Nat} {w : World V} {d : Nat → Option (List V)} (h : DevOK b D w d) (hs : ∀ i, i ∈ D → i ∈ D') : DevOK b D' w d :=
  fun i l hl => ⟨(h i l hl).1, (h i l hl).2.1, fun hn => (h i l hl).2.2 (fun hm => hn (hs i hm))⟩

theorem DevOK.upd {b : Backend V} {D : List Nat} {w : World V} {d : Nat → Option (List V)} (h : DevOK b D w d) {x : Nat} {l : List V} (hx : x < w.g.length)
    (hl : l.length = (den b.A w.g x).flatten.length) (hr : x ∉ D → cpuBuf w x = none → l = (den b.A w.g x).flatten) : DevOK b D w (upd d x l) := by
  intro i l' hi
  by_cases e : i = x
  · subst e; rw [upd_same] at hi; cases hi; exact ⟨hx, hl, hr⟩
  · rw [upd_ne _ _ e] at hi; exact h i l' hi

/-- A parameter that can be brought to the device. -/
def ParOK (D : List Nat) (w : World V) (d : Nat → Option (List V)) (i : Nat) : Prop :=
  i < w.g.length ∧ 0 < prod (w.g.shape i) ∧ ((cpuBuf w i).isSome ∨ (d i).isSome ∨ i ∈ D)

theorem alloc_G {b : Backend V} {D : List Nat} {w : World V} (h : WInv b w.noData) {d : Nat → Option (List V)} {ev : List DevEvent} (hd : DevOK b D w d) {i : Nat} (hp : ParOK D w d i) :
    ∃ d' ev', alloc b { w with dev := d, ev := ev } i = .ok { w with dev := d', ev := ev' } ∧ DevOK b D w d' ∧ (d' i).isSome ∧ (∀ j, j ≠ i → d' j = d j) ∧ (∀ l, d i = some l → d' i = some l) := by
  have hbl : bufLen { w with dev := d, ev := ev } i = prod (w.g.shape i) := bufLen_eq (w := { w with dev := d, ev := ev }) h.wf hp.1
  cases hdi : d i with
  | some l => exact ⟨d, ev, alloc_some (w := { w with dev := d, ev := ev }) hdi, hd, by rw [hdi]; rfl, fun _ _ => rfl, fun l' hl => by rw [hdi]; exact hl⟩
  | none =>
    refine ⟨_, _, alloc_none (w := { w with dev := d, ev := ev }) hdi (by rw [hbl]; have := hp.2.1; omega), ?_, by simp [upd_same], fun j hj => by simp only [upd_ne _ _ hj], fun l hl => by cases hl⟩
    refine hd.upd hp.1 ?_ (fun hn hc => ?_)
    · have := flatten_len h (i := i) hp.1
      have h2 : ((den b.A w.g i).flatten.length : Int) = prod (w.g.shape i) := this
      rw [List.length_map, List.length_range, hbl]
      omega
    · rcases hp.2.2 with h1 | h1 | h1
      · rw [hc] at h1; cases h1
      · rw [hdi] at h1; cases h1
      · exact absurd h1 hn

theorem toDev_G {b : Backend V} {D : List Nat} {w : World V} (h : WInv b w.noData) (hw : DataG b D0 w) {d : Nat → Option (List V)} {ev : List DevEvent} (hd : DevOK b D w d) {p : Nat × Nat}
    (hp : ParOK D w d p.1) :
    ∃ d' ev', toDev b { w with dev := d, ev := ev } p = .ok { w with dev := d', ev := ev' } ∧ DevOK b D w d' ∧ (d' p.1).isSome ∧ (∀ j, j ≠ p.1 → d' j = d j) ∧
      (p.2 ≠ 0 → ∀ l, cpuBuf w p.1 = some l → d' p.1 = some l) ∧ (∀ l, cpuBuf w p.1 = some l → d p.1 = some l → d' p.1 = some l) := by
  obtain ⟨d1, ev1, e1, h1, h2, h3, h4⟩ := alloc_G (ev := ev) h hd hp
  rw [toDev_eq e1]
  cases hc : cpuBuf w p.1 with
  | none =>
    rw [htod_none (w := { w with dev := d1, ev := ev1 }) hc]
    exact ⟨d1, ev1, rfl, h1, h2, h3, (fun _ l hl => by cases hl), (fun l hl => by cases hl)⟩
  | some l =>
    by_cases hk : p.2 = 0
    · rw [hk, htod_zero]
      exact ⟨d1, ev1, rfl, h1, h2, h3, fun hn => absurd rfl hn, fun l' _ hl => h4 l' hl⟩
    · rw [htod_some (w := { w with dev := d1, ev := ev1 }) hc hk]
      have hl := cpuBuf_okG (w := w) h.wf hw hp.1 hc
      refine ⟨_, _, rfl, h1.upd hp.1 (by rw [hl]) (fun _ hn => by rw [hc] at hn; cases hn), by simp [upd_same], fun j hj => by simp only [upd_ne _ _ hj]; exact h3 j hj, ?_, ?_⟩
      · intro _ l' hl'; cases hl'; simp [upd_same]
      · intro l' hl' _; cases hl'; simp [upd_same]

theorem toDevs_G {b : Backend V} {D D0 : List Nat} {w : World V} (h : WInv b w.noData) (hw : DataG b D0 w) (ps : List (Nat × Nat)) : ∀ {d : Nat → Option (List V)} {ev : List DevEvent}, DevOK b D w d →
    (∀ p ∈ ps, ParOK D w d p.1) →
    ∃ d' ev', ps.foldlM (toDev b) { w with dev := d, ev := ev } = .ok { w with dev := d', ev := ev' } ∧ DevOK b D w d' ∧ (∀ p ∈ ps, (d' p.1).isSome) ∧ (∀ j, (d j).isSome → (d' j).isSome) ∧
      (∀ j, j ∉ ps.map (·.1) → d' j = d j) ∧
      (∀ p ∈ ps, p.2 ≠ 0 → ∀ l, cpuBuf w p.1 = some l → d' p.1 = some l) ∧ (∀ j l, cpuBuf w j = some l → d j = some l → d' j = some l) := by
  induction ps with
  | nil => intro d ev hd _; exact ⟨d, ev, rfl, hd, by simp, fun _ h => h, fun _ _ => rfl, by simp, fun _ _ _ h => h⟩
  | cons p ps ih =>
    intro d ev hd hp
    obtain ⟨d1, ev1, e1, o1, s1, k1, c1, m1⟩ := toDev_G (ev := ev) h hw hd (hp p (by simp))
    have mono1 : ∀ j, (d j).isSome → (d1 j).isSome := fun j hj => by
      by_cases e : j = p.1
      · rw [e]; exact s1
      · rw [k1 j e]; exact hj
    have keep1 : ∀ j l, cpuBuf w j = some l → d j = some l → d1 j = some l := fun j l hc hj => by
      by_cases e : j = p.1
      · subst e; exact m1 l hc hj
      · rw [k1 j e]; exact hj
    obtain ⟨d2, ev2, e2, o2, s2, mo2, k2, c2, m2⟩ := ih (ev := ev1) o1 (fun q hq => by
      obtain ⟨a1, a2, a3⟩ := hp q (by simp [hq])
      exact ⟨a1, a2, a3.imp_right (Or.imp_left (mono1 _))⟩)
    refine ⟨d2, ev2, ?_, o2, ?_, fun j hj => mo2 j (mono1 j hj), ?_, ?_, fun j l hc hj => m2 j l hc (keep1 j l hc hj)⟩
    · rw [List.foldlM_cons, e1]; exact e2
    · intro q hq
      rcases List.mem_cons.1 hq with rfl | hq
      · exact mo2 _ s1
      · exact s2 q hq
    · intro j hj
      simp only [List.map_cons, List.mem_cons, not_or] at hj
      rw [k2 j hj.2, k1 j hj.1]
    · intro q hq hk l hl
      rcases List.mem_cons.1 hq with rfl | hq
      · exact m2 _ l hl (c1 hk l hl)
      · exact c2 q hq hk l hl

/-- What running a function does. -/
structure StepG (b : Backend V) (w : World V) (D' : List Nat) (w' : World V) : Prop where
  inv : WInv b w'.noData
  data : DataG b D' w'
  g : w'.g = w.g
  log : w'.log = w.log
  grad : w'.grad = w.grad
  cpu : w'.cpu = w.cpu
  mono : ∀ i, (w.dev i).isSome → (w'.dev i).isSome

/-- Available: in host memory, or complete on the device. -/
def AvailG (D : List Nat) (w : World V) (i : Nat) : Prop := (cpuBuf w i).isSome ∨ ((w.dev i).isSome ∧ i ∉ D)

theorem mem_spoiledG {w : World V} {D : List Nat} {d : Option Nat} {i : Nat} (h : i ∈ spoiledGpu w D d) : (d = some i ∧ cpuBuf w i = none ∧ w.dev i = none) ∨ i ∈ D := by
  cases d with
  | none => exact .inr h
  | some f =>
    simp only [spoiledGpu] at h
    split at h
    · exact .inr h
    · rename_i hn
      rcases List.mem_cons.1 h with rfl | h
      · simp only [not_or, Option.not_isSome_iff_eq_none] at hn
        exact .inl ⟨rfl, hn⟩
      · exact .inr h

theorem sub_spoiledG {w : World V} {D : List Nat} (d : Option Nat) {i : Nat} (h : i ∈ D) : i ∈ spoiledGpu w D d := by
  cases d with
  | none => exact h
  | some f =>
    simp only [spoiledGpu]
    split
    · exact h
    · exact List.mem_cons_of_mem _ h

theorem fst_zipIdx (l : List Nat) (k : Nat) : (l.zipIdx k).map (·.1) = l := by
  apply List.ext_getElem (by simp)
  intro k h1 h2; simp

/-- All parameters of a kernel can be brought to the device. -/
theorem params_G {D : List Nat} {w : World V} {out : Nat} {ins : List Nat} (ho : out < w.g.length) (hsz : ∀ i ∈ out :: ins, 0 < prod (w.g.shape i))
    (hin : ∀ i ∈ ins, i < w.g.length ∧ AvailG D w i) : ∀ i ∈ out :: ins, ParOK (spoiledGpu w D (some out)) w w.dev i := by
  intro i hi
  rcases List.mem_cons.1 hi with rfl | hm
  · refine ⟨ho, hsz _ hi, ?_⟩
    simp only [spoiledGpu]
    split
    · rename_i h; exact h.imp_right .inl
    · exact .inr (.inr List.mem_cons_self)
  · exact ⟨(hin i hm).1, hsz _ hi, (hin i hm).2.imp_right fun h => .inl h.1⟩

/-- What is on the device before the launch. -/
theorem loaded_G {b : Backend V} {D : List Nat} {w : World V} (h : WInv b w.noData) (hw : DataG b D w) {out : Nat} {ins : List Nat} (ho : out < w.g.length) (hni : out ∉ ins)
    (hsz : ∀ i ∈ out :: ins, 0 < prod (w.g.shape i)) (hin : ∀ i ∈ ins, i < w.g.length ∧ AvailG D w i) :
    ∃ o d ev, (out :: ins).zipIdx.foldlM (toDev b) w = .ok { w with dev := d, ev := ev } ∧ DevOK b (spoiledGpu w D (some out)) w d ∧ d out = some o ∧
      (o.length : Int) = prod (w.g.shape out) ∧ (∀ i ∈ ins, d i = some (den b.A w.g i).flatten) ∧ (∀ j, (w.dev j).isSome → (d j).isSome) ∧ ∀ j, j ∉ out :: ins → d j = w.dev j := by
  have hpar := params_G ho hsz hin
  obtain ⟨d, ev, e, hok, hs, hm, hk, hc, _⟩ := toDevs_G (D := spoiledGpu w D (some out)) (d := w.dev) (ev := w.ev) h hw (out :: ins).zipIdx (hw.dev.mono fun i => sub_spoiledG _) (fun p hp => by
    have : p.1 ∈ ((out :: ins).zipIdx).map (·.1) := List.mem_map_of_mem hp
    rw [fst_zipIdx] at this
    exact hpar p.1 this)
  have hsome : ∀ i ∈ out :: ins, (d i).isSome := by
    intro i hi
    rw [← fst_zipIdx (out :: ins) 0] at hi
    obtain ⟨p, hp, rfl⟩ := List.mem_map.1 hi
    exact hs p hp
  obtain ⟨o, hdo⟩ := Option.isSome_iff_exists.1 (hsome out (by simp))
  refine ⟨o, d, ev, e, hok, hdo, ?_, fun i hi => ?_, hm, fun j hj => hk j (by rw [fst_zipIdx]; exact hj)⟩
  · rw [(hok out o hdo).2.1]; exact flatten_len h (i := out) ho
  · have hne : i ≠ out := by rintro rfl; exact hni hi
    have hz : i ∈ (ins.zipIdx 1).map (·.1) := by rw [fst_zipIdx]; exact hi
    obtain ⟨p, hp, rfl⟩ := List.mem_map.1 hz
    have hk := (List.mem_zipIdx hp).1
    cases hcb : cpuBuf w p.1 with
    | some l =>
      rw [hc p (by rw [List.zipIdx_cons]; exact List.mem_cons_of_mem _ hp) (by omega) l hcb, cpuBuf_okG (w := w) h.wf hw (hin _ hi).1 hcb]
    | none =>
      obtain ⟨l, hl⟩ := Option.isSome_iff_exists.1 (hsome p.1 (by simp [hi]))
      rw [hl, (hok p.1 l hl).2.2 (fun hm => ?_) hcb]
      rcases mem_spoiledG hm with hm | hm
      · exact hne (Option.some.inj hm.1).symm
      · rcases (hin _ hi).2 with h1 | h1
        · rw [hcb] at h1; cases h1
        · exact h1.2 hm

/-- The trace before the launch. -/
theorem loaded_X {b : Backend V} {D : List Nat} {w w1 : World V} (hw : DataG b D w) {out : Nat} {ins : List Nat} (ho : out < w.g.length) (hni : out ∉ ins)
    (hsz : ∀ i ∈ out :: ins, 0 < prod (w.g.shape i)) (hin : ∀ i ∈ ins, i < w.g.length ∧ AvailG D w i) (e : (out :: ins).zipIdx.foldlM (toDev b) w = .ok w1) :
    EvX (spoiledGpu w D (some out)) w w1.dev w1.ev ∧ (w1.dev out).isSome ∧ ∀ i ∈ ins, (w1.dev i).isSome ∧ Loaded w1.ev i := by
  have hpar := params_G ho hsz hin
  obtain ⟨n, _, hs, hc⟩ := toDevs_X (D := spoiledGpu w D (some out)) (w := w) (out :: ins).zipIdx ⟨rfl, rfl⟩ (hw.ev.mono fun i => sub_spoiledG _) (fun p hp => by
    have : p.1 ∈ ((out :: ins).zipIdx).map (·.1) := List.mem_map_of_mem hp
    rw [fst_zipIdx] at this
    exact (hpar p.1 this).2.2) e
  have hsome : ∀ i ∈ out :: ins, (w1.dev i).isSome := by
    intro i hi
    rw [← fst_zipIdx (out :: ins) 0] at hi
    obtain ⟨p, hp, rfl⟩ := List.mem_map.1 hi
    exact hs p hp
  refine ⟨n.inv, hsome out (by simp), fun i hi => ⟨hsome i (by simp [hi]), ?_⟩⟩
  have hz : i ∈ (ins.zipIdx 1).map (·.1) := by rw [fst_zipIdx]; exact hi
  obtain ⟨p, hp, rfl⟩ := List.mem_map.1 hz
  have hk := (List.mem_zipIdx hp).1
  rcases (hin _ hi).2 with h1 | h1
  · exact .inl (hc p (by rw [List.zipIdx_cons]; exact List.mem_cons_of_mem _ hp) (by omega) h1)
  · rcases hw.ev.src _ h1.1 with h2 | h2 | ⟨is, h2⟩
    · exact absurd h2 h1.2
    · exact .inl (hc p (by rw [List.zipIdx_cons]; exact List.mem_cons_of_mem _ hp) (by omega) h2)
    · exact .inr ⟨is, n.since _ _ h2⟩

theorem launch_X {D : List Nat} {w w1 : World V} {out : Nat} {ins : List Nat} (hni : out ∉ ins) (h : EvX (spoiledGpu w D (some out)) w w1.dev w1.ev ∧ (w1.dev out).isSome ∧
    ∀ i ∈ ins, (w1.dev i).isSome ∧ Loaded w1.ev i) (l : List V) : EvX (D.filter (· ≠ out)) w (upd w1.dev out l) (w1.ev ++ [.launch out ins]) :=
  (h.1.launch h.2.1 hni h.2.2 l).mono fun i hi => by
    obtain ⟨h1, h2⟩ := mem_without.1 hi
    rcases mem_spoiledG h1 with h1 | h1
    · exact absurd (Option.some.inj h1.1).symm h2
    · exact mem_without.2 ⟨h1, h2⟩

/-- A completed kernel run. -/
theorem invoke_G {b : Backend V} {D : List Nat} {w : World V} (h : WInv b w.noData) (hw : DataG b D w) (hg : b.isGpu = true) {sch : Schedule} {K : Kernel} {out : Nat} {ins : List Nat}
    (ho : out < w.g.length) (hni : out ∉ ins) (hp : K.params.length = (out :: ins).length)
    (hsz : ∀ i ∈ out :: ins, 0 < prod (w.g.shape i)) (hlo : launchOK sch = true) (hin : ∀ i ∈ ins, i < w.g.length ∧ AvailG D w i)
    (hrun : ∀ o : List V, (o.length : Int) = prod (w.g.shape out) →
      ∃ ws, b.run w.tick (machine b K o (ins.map fun i => (den b.A w.g i).flatten)) sch K.body = some ws ∧ ws.Perm (storesOf b.A w.g out)) :
    ∃ w', invoke b w sch K out ins = .ok w' ∧ StepG b w (D.filter (· ≠ out)) w' ∧ (w'.dev out).isSome := by
  obtain ⟨o, d, ev, hfold, hok, hdo, hol, hdi, hm, hk⟩ := loaded_G h hw ho hni hsz hin
  obtain ⟨ws, hws, hperm⟩ := hrun o hol
  have hnn : NonNeg (w.g.shape out) := h.nn out ho
  have hout : applyWrites o ws = (den b.A w.g out).flatten := applyWrites_stores h.wf ho hnn hperm hol
  refine ⟨{ w with dev := upd d out (applyWrites o ws), tick := w.tick + 1, ev := ev ++ [.launch out ins] }, ?_, ⟨⟨h.wf, h.nn, h.cpu, h.dev, h.cache, h.ev⟩, ⟨hw.cpu, ?_, ?_, ?_, ?_,
    (launch_X hni (loaded_X hw ho hni hsz hin hfold) _).world fun _ _ h => h⟩, rfl, rfl, rfl, rfl, ?_⟩, by simp [upd_same]⟩
  · simp only [invoke, if_neg hni, if_neg (not_not.2 hp), hg, if_true, hfold, hdo, mapM_some hdi, gpuRun, hlo, hws, bind, Except.bind, pure, Except.pure]
  · intro i l hl
    simp only at hl
    by_cases e : i = out
    · subst e; rw [upd_same] at hl; cases hl; exact ⟨ho, by rw [hout], fun _ _ => hout⟩
    · rw [upd_ne _ _ e] at hl
      have := hok i l hl
      refine ⟨this.1, this.2.1, fun hn => this.2.2 fun hm => ?_⟩
      rcases mem_spoiledG hm with hm | hm
      · exact e (Option.some.inj hm.1).symm
      · exact hn (mem_without.2 ⟨hm, e⟩)
  · exact fun i hi => hw.lt i (mem_without.1 hi).1
  · exact fun i hi => hw.nonconst i (mem_without.1 hi).1
  · exact fun i hi => hw.nocpu i (mem_without.1 hi).1
  · intro i hi
    simp only
    by_cases e : i = out
    · subst e; rw [upd_same]; rfl
    · rw [upd_ne _ _ e]; exact hm i hi

/-- An interrupted kernel run. -/
theorem invokePart_G {b : Backend V} {D : List Nat} {w w' : World V} (h : WInv b w.noData) (hw : DataG b D w) (hg : b.isGpu = true) {sch : Schedule} {K : Kernel} {out : Nat} {ins : List Nat}
    (ho : out < w.g.length) (hc : w.g.ctx out ≠ .const) (hni : out ∉ ins) (hsz : ∀ i ∈ out :: ins, 0 < prod (w.g.shape i)) (hin : ∀ i ∈ ins, i < w.g.length ∧ AvailG D w i)
    (hrun : ∀ o : List V, (o.length : Int) = prod (w.g.shape out) →
      ∃ ws, b.run w.tick (machine b K o (ins.map fun i => (den b.A w.g i).flatten)) sch K.body = some ws ∧ ws.Perm (storesOf b.A w.g out))
    (hp : InvokePart b w sch K out ins w') : StepG b w (spoiledGpu w D (some out)) w' := by
  have key : ∀ (d : Nat → Option (List V)) (ev : List DevEvent) (n : Nat), DevOK b (spoiledGpu w D (some out)) w d → (∀ j, (w.dev j).isSome → (d j).isSome) →
      EvX (spoiledGpu w D (some out)) w d ev → StepG b w (spoiledGpu w D (some out)) { w with dev := d, ev := ev, tick := n } := by
    intro d ev n h1 h2 h3
    refine ⟨⟨h.wf, h.nn, h.cpu, h.dev, h.cache, h.ev⟩, ⟨hw.cpu, h1, fun i hi => ?_, fun i hi => ?_, fun i hi => ?_, h3.world fun _ _ h => h⟩, rfl, rfl, rfl, rfl, h2⟩
    · rcases mem_spoiledG hi with hi | hi
      · cases hi.1; exact ho
      · exact hw.lt i hi
    · rcases mem_spoiledG hi with hi | hi
      · cases hi.1; exact hc
      · exact hw.nonconst i hi
    · rcases mem_spoiledG hi with hi | hi
      · have := hi.2.1
        unfold cpuBuf at this
        exact (Option.or_eq_none_iff.1 this).1
      · exact hw.nocpu i hi
  have hpar := params_G ho hsz hin
  have hmem : ∀ p ∈ (out :: ins).zipIdx, p.1 ∈ out :: ins := fun p hp => by
    have : p.1 ∈ ((out :: ins).zipIdx).map (·.1) := List.mem_map_of_mem hp
    rwa [fst_zipIdx] at this
  have hpart : ∀ k, ∃ d ev, ((out :: ins).zipIdx.take k).foldlM (toDev b) w = .ok { w with dev := d, ev := ev } ∧ DevOK b (spoiledGpu w D (some out)) w d ∧ (∀ j, (w.dev j).isSome → (d j).isSome) ∧
      EvX (spoiledGpu w D (some out)) w d ev := by
    intro k
    obtain ⟨d, ev, e, hok, _, hm, _⟩ := toDevs_G (D := spoiledGpu w D (some out)) (d := w.dev) (ev := w.ev) h hw ((out :: ins).zipIdx.take k) (hw.dev.mono fun i => sub_spoiledG _)
      (fun p hp => hpar p.1 (hmem p (List.mem_of_mem_take hp)))
    obtain ⟨nx, _⟩ := toDevs_X (D := spoiledGpu w D (some out)) (w := w) ((out :: ins).zipIdx.take k) ⟨rfl, rfl⟩ (hw.ev.mono fun i => sub_spoiledG _)
      (fun p hp => (hpar p.1 (hmem p (List.mem_of_mem_take hp))).2.2) e
    exact ⟨d, ev, e, hok, hm, nx.inv⟩
  cases hp with
  | filling k hg' => rw [hg] at hg'; cases hg'
  | running hg' _ _ _ _ _ => rw [hg] at hg'; cases hg'
  | copying k _ e =>
    obtain ⟨d, ev, e', hok, hm, hx⟩ := hpart k
    rw [e'] at e; cases e
    exact key d ev w.tick hok hm hx
  | @allocating w1 _ q k _ e hq ha =>
    obtain ⟨d, ev, e', hok, hm, hx⟩ := hpart k
    rw [e'] at e; cases e
    obtain ⟨a1, a2, a3⟩ := hpar q.1 (hmem q (List.mem_of_getElem? hq))
    obtain ⟨d2, ev2, e2, o2, s2, k2, _⟩ := alloc_G (ev := ev) h hok ⟨a1, a2, a3.imp_right (Or.imp_left (hm _))⟩
    have nx := (alloc_X (w := w) (w0 := { w with dev := d, ev := ev }) ⟨rfl, rfl⟩ hx (a3.imp_right (Or.imp_left (hm _))) ha).1
    rw [e2] at ha; cases ha
    refine key d2 ev2 w.tick o2 (fun j hj => ?_) nx.inv
    by_cases e : j = q.1
    · rw [e]; exact s2
    · rw [k2 j e]; exact hm j hj
  | @launched w1 o' is ws0 ws' _ e1 e2 e3 e4 e5 =>
    obtain ⟨o, d, ev, hfold, hok, hdo, hol, hdi, hm, hk⟩ := loaded_G h hw ho hni hsz hin
    rw [hfold] at e1; cases e1
    have e2' : d out = some o' := e2
    have ho' : o' = o := Option.some.inj (e2'.symm.trans hdo)
    subst ho'
    rw [mapM_some (f := ({ w with dev := d, ev := ev } : World V).dev) hdi] at e3; cases e3
    obtain ⟨ws, hws, hperm⟩ := hrun o' hol
    have e4' : gpuRun b w.tick (machine b K o' (ins.map fun i => (den b.A w.g i).flatten)) sch K.body = some ws0 := e4
    unfold gpuRun at e4'
    split at e4'
    case isFalse => cases e4'
    rw [hws] at e4'; cases e4'
    have hright : ∀ x ∈ ws', ((den b.A w.g out).flatten)[x.1.toNat]? = some x.2 := fun x hx => stores_right h.wf ho x (hperm.mem_iff.1 (e5.subset hx))
    refine key _ _ _ (hok.upd ho (by rw [applyWrites_length]; exact (hok out o' hdo).2.1) fun hn hcb => ?_) (fun j hj => ?_)
      ((launch_X hni (loaded_X hw ho hni hsz hin hfold) _).mono fun i hi => sub_spoiledG _ (mem_without.1 hi).1)
    · rw [(hok out o' hdo).2.2 hn hcb]; exact writes_same hright
    · by_cases e : j = out
      · subst e; rw [upd_same]; rfl
      · rw [upd_ne _ _ e]; exact hm j hj

/-- Sizes and grid of one function. -/
def FuncSizes (g : Graph V) (F : Func) (f : Nat) : Prop :=
  ∀ i, (i = f ∨ i ∈ Algo.funcRefs F.expr ∨ i ∈ Algo.bufRefs F.expr) → 0 < prod (g.shape i) ∧ (i = f → g.ctx f ≠ .const → GridOK (launchGrid (g.shape i)))

theorem FuncSizes.params {g : Graph V} {F : Func} {f : Nat} (h : FuncSizes g F f) : ∀ i ∈ f :: ((Algo.args F.expr).1 ++ (Algo.args F.expr).2), 0 < prod (g.shape i) := by
  intro i hi
  apply (h i _).1
  simp only [List.mem_cons, List.mem_append] at hi
  rcases hi with rfl | hi | hi
  · exact Or.inl rfl
  · exact Or.inr (Or.inr (mem_dedup.1 hi))
  · exact Or.inr (Or.inl (mem_dedup.1 hi))

theorem StepG.avail {b : Backend V} {D D' : List Nat} {w w' : World V} (s : StepG b w D' w') {i : Nat} (hs : ∀ j, j ∈ D' → j ∈ D) (h : AvailG D w i) : AvailG D' w' i := by
  refine h.imp (fun h => ?_) fun h => ⟨s.mono i h.1, fun hm => h.2 (hs i hm)⟩
  unfold cpuBuf at *
  rw [s.cpu, s.g]; exact h

theorem cached_noData {b : Backend V} {w : World V} (h : WInv b w.noData) {key : Key} {K0 : Kernel} {n0 : Nat} (hm : (key, .ok (K0, n0)) ∈ w.log) :
    WInv b ({ w with tmp := n0 + w.tmp, cache := w.cache ++ [(key, K0.shift w.tmp)], hits := fun k => if k = key then 0 else w.hits k } : World V).noData := by
  refine ⟨h.wf, h.nn, h.cpu, h.dev, ?_, h.ev⟩
  intro k K hk
  rcases List.mem_append.1 hk with hk | hk
  · exact h.cache k K hk
  · simp only [List.mem_singleton, Prod.mk.injEq] at hk
    obtain ⟨rfl, rfl⟩ := hk
    exact ⟨K0, n0, w.tmp, hm, rfl⟩

/-- One function, completely run. -/
theorem runFunc_G {b : Backend V} (hb : Faithful b) (hg : b.isGpu = true) {D : List Nat} {w : World V} (h : WInv b w.noData) (hw : DataG b D w) {t : Tbl} {a f : Nat} {S : Nat → Prop}
    (ht : TblGood w.g t a S) (hf : S f) {F : Func} (hF : t f = some F) {sch : Schedule} (hsch : Sched.schedule b.isGpu F = .ok sch) (hsz : FuncSizes w.g F f)
    (hav : ∀ d ∈ Algo.funcRefs F.expr, AvailG D w d) (hnc : NoCollision w.log)
    (hlog : ∀ q, plan1 w.g t (a + 2) (f, sch) = some q → q ∈ w.log) :
    ∃ w', runFunc b t (a + 2) w (f, sch) = .ok w' ∧ StepG b w (D.filter (· ≠ f)) w' ∧ (w'.dev f).isSome := by
  obtain ⟨key, K0, n0, X⟩ := func_facts (g := w.g) hb h.wf h.nn ht hf hF hsch hlog
  have hlo : launchOK sch = true := by
    obtain ⟨_, hfc, F', hF', hE, _⟩ := ht.entry f hf
    rw [hF] at hF'; cases hF'
    rw [hg] at hsch
    exact (launchOK_iff hE hsch).2 ((hsz f (.inl rfl)).2 rfl hfc)
  have hin : ∀ i ∈ (Algo.args F.expr).1 ++ (Algo.args F.expr).2, i < w.g.length ∧ AvailG D w i := by
    intro i hi
    rcases List.mem_append.1 hi with hi | hi
    · exact ⟨(X.bufs i hi).1, .inl (avail_const (b := b) (w := w) h.wf (X.bufs i hi).1 (X.bufs i hi).2)⟩
    · exact ⟨(X.fncs i hi).1, hav i (X.fncs i hi).2⟩
  unfold runFunc
  simp only [hF, X.outs, X.hkey, bind, Except.bind]
  rw [X.buffer]
  cases hc : w.cache.lookup key with
  | some K =>
    obtain ⟨K1, n1, n, hm, rfl⟩ := h.cache key K (mem_of_lookup hc)
    have heq := hnc _ hm _ X.log rfl
    simp only [Except.ok.injEq, Prod.mk.injEq] at heq
    obtain ⟨rfl, rfl⟩ := heq
    have hw1 : WInv b ({ w with hits := fun k => if k = key then w.hits k + 1 else w.hits k } : World V).noData := ⟨h.wf, h.nn, h.cpu, h.dev, h.cache, h.ev⟩
    obtain ⟨w', e, hr, ha⟩ := invoke_G hw1 ⟨hw.cpu, hw.dev, hw.lt, hw.nonconst, hw.nocpu, hw.ev.world fun _ _ h => h⟩ hg (sch := sch) (K := K1.shift n) X.lt X.notIn (X.params n) hsz.params hlo hin (X.run n _)
    exact ⟨w', e, ⟨hr.inv, hr.data, hr.g, hr.log, hr.grad, hr.cpu, hr.mono⟩, ha⟩
  | none =>
    simp only [X.gen w.tmp, pure, Except.pure]
    have hw1 := cached_noData h X.log
    obtain ⟨w', e, hr, ha⟩ := invoke_G hw1 ⟨hw.cpu, hw.dev, hw.lt, hw.nonconst, hw.nocpu, hw.ev.world fun _ _ h => h⟩ hg (sch := sch) (K := K0.shift w.tmp) X.lt X.notIn (X.params _) hsz.params hlo hin (X.run _ _)
    rw [e]
    exact ⟨_, rfl, ⟨⟨hr.inv.wf, hr.inv.nn, hr.inv.cpu, hr.inv.dev, hr.inv.cache, hr.inv.ev⟩, ⟨hr.data.cpu, hr.data.dev, hr.data.lt, hr.data.nonconst, hr.data.nocpu, hr.data.ev.world fun _ _ h => h⟩,
      hr.g, hr.log, hr.grad, hr.cpu, hr.mono⟩, ha⟩

/-- One function, interrupted. -/
theorem runPart_G {b : Backend V} (hb : Faithful b) (hg : b.isGpu = true) {D : List Nat} {w w' : World V} (h : WInv b w.noData) (hw : DataG b D w) {t : Tbl} {a f : Nat} {S : Nat → Prop}
    (ht : TblGood w.g t a S) (hf : S f) {F : Func} (hF : t f = some F) {sch : Schedule} (hsch : Sched.schedule b.isGpu F = .ok sch) (hsz : FuncSizes w.g F f)
    (hav : ∀ d ∈ Algo.funcRefs F.expr, AvailG D w d) (hnc : NoCollision w.log)
    (hlog : ∀ q, plan1 w.g t (a + 2) (f, sch) = some q → q ∈ w.log) {d : Option Nat} (hp : RunPart b t (a + 2) w (f, sch) d w') :
    StepG b w (spoiledGpu w D d) w' ∧ ∀ x ∈ d, x = f := by
  obtain ⟨key, K0, n0, X⟩ := func_facts (g := w.g) hb h.wf h.nn ht hf hF hsch hlog
  have hin : ∀ i ∈ (Algo.args F.expr).1 ++ (Algo.args F.expr).2, i < w.g.length ∧ AvailG D w i := by
    intro i hi
    rcases List.mem_append.1 hi with hi | hi
    · exact ⟨(X.bufs i hi).1, .inl (avail_const (b := b) (w := w) h.wf (X.bufs i hi).1 (X.bufs i hi).2)⟩
    · exact ⟨(X.fncs i hi).1, hav i (X.fncs i hi).2⟩
  cases hp with
  | before n =>
    exact ⟨⟨⟨h.wf, h.nn, h.cpu, h.dev, h.cache, h.ev⟩, ⟨hw.cpu, hw.dev, hw.lt, hw.nonconst, hw.nocpu, hw.ev.world fun _ _ h => h⟩, rfl, rfl, rfl, rfl, fun _ h => h⟩, by simp⟩
  | @hit F' outs' key' K w' hF' ho hk hl hi =>
    simp only [hF, Option.some.injEq] at hF'
    subst hF'
    rw [X.outs] at ho; cases ho
    rw [X.hkey] at hk; cases hk
    obtain ⟨K1, n1, n, hm, hKe⟩ := h.cache key K (mem_of_lookup hl)
    have heq := hnc _ hm _ X.log rfl
    simp only [Except.ok.injEq, Prod.mk.injEq] at heq
    have hK : K0.shift n = K := by rw [hKe, heq.1]
    have hw1 : WInv b ({ w with hits := fun k => if k = key then w.hits k + 1 else w.hits k } : World V).noData := ⟨h.wf, h.nn, h.cpu, h.dev, h.cache, h.ev⟩
    rw [X.buffer] at hi ⊢
    have hr := invokePart_G hw1 ⟨hw.cpu, hw.dev, hw.lt, hw.nonconst, hw.nocpu, hw.ev.world fun _ _ h => h⟩ hg X.lt X.nonconst X.notIn hsz.params hin (hK ▸ X.run n _) hi
    exact ⟨⟨hr.inv, hr.data, hr.g, hr.log, hr.grad, hr.cpu, hr.mono⟩, by simp⟩
  | miss hF' ho hk hl hc hi =>
    simp only [hF, Option.some.injEq] at hF'
    subst hF'
    rw [X.outs] at ho; cases ho
    rw [X.hkey] at hk; cases hk
    rw [X.gen w.tmp] at hc; cases hc
    have hw1 := cached_noData h X.log
    rw [X.buffer] at hi ⊢
    have hr := invokePart_G hw1 ⟨hw.cpu, hw.dev, hw.lt, hw.nonconst, hw.nocpu, hw.ev.world fun _ _ h => h⟩ hg X.lt X.nonconst X.notIn hsz.params hin (X.run _ _) hi
    exact ⟨⟨hr.inv, hr.data, hr.g, hr.log, hr.grad, hr.cpu, hr.mono⟩, by simp⟩

/-- Several functions, completely run. -/
theorem runFuncs_G {b : Backend V} (hb : Faithful b) (hg : b.isGpu = true) {t : Tbl} {a : Nat} {g : Graph V} {S : Nat → Prop} (ht : TblGood g t a S) :
    ∀ (ps : List (Nat × Schedule)) (done rest D : List Nat) (w : World V), WInv b w.noData → DataG b D w → w.g = g → NoCollision w.log →
    (∀ p ∈ ps, S p.1 ∧ ∃ F, t p.1 = some F ∧ Sched.schedule b.isGpu F = .ok p.2) →
    (∀ p ∈ ps, ∀ F, t p.1 = some F → FuncSizes g F p.1) →
    (∀ p ∈ ps, ∀ q, plan1 g t (a + 2) p = some q → q ∈ w.log) →
    Ordered t (done ++ ps.map (·.1) ++ rest) → (∀ d ∈ done, AvailG D w d) →
    ∃ w' D', ps.foldlM (runFunc b t (a + 2)) w = .ok w' ∧ StepG b w D' w' ∧ (∀ i, i ∈ D' → i ∈ D) ∧ (∀ p ∈ ps, p.1 ∉ D') ∧
      (∀ d ∈ done ++ ps.map (·.1), AvailG D' w' d) := by
  intro ps
  induction ps with
  | nil =>
    intro done rest D w h hw _ _ _ _ _ _ hdn
    exact ⟨w, D, rfl, ⟨h, hw, rfl, rfl, rfl, rfl, fun _ h => h⟩, fun _ h => h, by simp, by simpa using hdn⟩
  | cons p ps ih =>
    intro done rest D w h hw hgr hnc hp hsz hlog ho hdn
    obtain ⟨hS, F, hF, hs⟩ := hp p (by simp)
    subst hgr
    obtain ⟨w1, e1, s1, a1⟩ := runFunc_G hb hg h hw ht hS hF hs (hsz p (by simp) F hF)
      (fun d hd' => hdn d (ho done p.1 (ps.map (·.1) ++ rest) (by simp) F hF d hd')) hnc (fun q hq => hlog p (by simp) q hq)
    have hpD : p.1 ∉ D.filter (· ≠ p.1) := fun hm => (mem_without.1 hm).2 rfl
    obtain ⟨w2, D2, e2, s2, sub2, n2, a2⟩ := ih (done ++ [p.1]) rest (D.filter (· ≠ p.1)) w1 s1.inv s1.data s1.g (by rw [s1.log]; exact hnc) (fun q hq => hp q (by simp [hq]))
      (fun q hq => hsz q (by simp [hq])) (fun q hq r hr => by rw [s1.log]; exact hlog q (by simp [hq]) r hr)
      (by simpa using ho) (by
        intro d hd'
        rcases List.mem_append.1 hd' with hd' | hd'
        · exact s1.avail (fun j hj => (mem_without.1 hj).1) (hdn d hd')
        · simp only [List.mem_singleton] at hd'
          rw [hd']
          exact .inr ⟨a1, hpD⟩)
    refine ⟨w2, D2, ?_, ⟨s2.inv, s2.data, s2.g.trans s1.g, s2.log.trans s1.log, s2.grad.trans s1.grad, s2.cpu.trans s1.cpu, ?_⟩, ?_, ?_, ?_⟩
    · rw [List.foldlM_cons, e1]; exact e2
    · exact fun i hs => s2.mono i (s1.mono i hs)
    · intro i hi; exact (mem_without.1 (sub2 i hi)).1
    · intro q hq
      rcases List.mem_cons.1 hq with rfl | hq
      · exact fun hm => hpD (sub2 _ hm)
      · exact n2 q hq
    · simpa using a2

theorem DataG.mask {b : Backend V} {D D' : List Nat} {w : World V} (h : DataG b D w) (hs : ∀ i, i ∈ D → i ∈ D') (hl : ∀ i ∈ D', i < w.g.length) (hc : ∀ i ∈ D', w.g.ctx i ≠ .const)
    (hn : ∀ i ∈ D', w.cpu i = none) : DataG b D' w := ⟨h.cpu, h.dev.mono hs, hl, hc, hn, h.ev.mono hs⟩

/-- What a completed `materialize` does after interruptions. -/
structure MatG (b : Backend V) (D : List Nat) (w w' : World V) (a : Nat) : Prop where
  inv : WInv b w'.noData
  data : DataG b (D.filter (· ≠ base w.g a)) w'
  g : w'.g = w.g
  grad : w'.grad = w.grad
  cpu : w'.cpu = w.cpu
  mono : ∀ i, (w.dev i).isSome → (w'.dev i).isSome
  avail : AvailG (D.filter (· ≠ base w.g a)) w' (base w.g a)

theorem logged_noData {b : Backend V} {w : World V} (h : WInv b w.noData) (l : List (Key × Except Err (Kernel × Nat))) : WInv b ({ w with log := w.log ++ l } : World V).noData :=
  ⟨h.wf, h.nn, h.cpu, h.dev, fun k K hk => by
    obtain ⟨K0, n0, n, h1, h2⟩ := h.cache k K hk
    exact ⟨K0, n0, n, List.mem_append_left _ h1, h2⟩, h.ev⟩

theorem materialize_nonviewG {b : Backend V} (hb : Faithful b) (hg : b.isGpu = true) {D : List Nat} {w : World V} (h : WInv b w.noData) (hw : DataG b D w) {a : Nat} (ha : a < w.g.length)
    (hv : (w.g.ctx a).op.isView = false) (hns : NoScalarReshape w.g a) (hnc : NoCollision (w.log ++ launchLog b.isGpu w.g a)) (hsz : KernelSizes w.g a) (fuel : Nat) :
    ∃ w', materializeF b (fuel + 1) w a = .ok w' ∧ MatG b D w w' a := by
  have hwf : WF w.g := h.wf
  have hbase : base w.g a = a := base_nonview hv
  by_cases hc : w.g.ctx a = .const
  · have hD : D.filter (· ≠ base w.g a) = D := by
      rw [List.filter_eq_self]
      intro i hi
      rw [hbase]
      simp only [ne_eq, decide_eq_true_eq]
      rintro rfl
      exact hw.nonconst _ hi hc
    refine ⟨w, ?_, ?_⟩
    · unfold materializeF; rw [hc]; rfl
    · refine ⟨h, by rw [hD]; exact hw, rfl, rfl, rfl, fun _ h => h, ?_⟩
      rw [hbase]
      exact .inl (avail_const (b := b) (w := w) hwf ha hc)
  · have hcop := isConst_false hwf ha hc
    obtain ⟨funcs, t, e, hnd, ⟨pre, hpre⟩, hord, htg, hreach⟩ := convert_good hwf ha hns hv hc
    obtain ⟨scheds, es, hl, hps⟩ := schedAll_ok (isGpu := b.isGpu) htg funcs (fun _ h => h)
    have hlog := launchLog_nonview (isGpu := b.isGpu) hcop hv e es
    have hmap : (funcs.zip scheds).map (·.1) = funcs := by
      apply List.map_fst_zip; omega
    obtain ⟨w', D', e', s', hsub, hnot, av⟩ := runFuncs_G hb hg htg (funcs.zip scheds) [] [] D
      { w with log := w.log ++ (funcs.zip scheds).filterMap (plan1 w.g t (a + 2)) }
      (logged_noData h _) ⟨hw.cpu, hw.dev, hw.lt, hw.nonconst, hw.nocpu, hw.ev.world fun _ _ h => h⟩ rfl (by rw [← hlog]; exact hnc)
      (fun p hp => ⟨by rw [← hmap]; exact List.mem_map_of_mem hp, hps p hp⟩)
      (fun p hp F hF => hsz funcs t e p.1 (by rw [← hmap]; exact List.mem_map_of_mem hp) F hF)
      (fun p hp q hq => List.mem_append_right _ (List.mem_filterMap.2 ⟨p, hp, hq⟩))
      (by rw [hmap]; simpa using hord) (by simp)
    have haf : a ∈ (funcs.zip scheds).map (·.1) := by rw [hmap, hpre]; simp
    have haD : a ∉ D' := by
      obtain ⟨p, hp, hpa⟩ := List.mem_map.1 haf
      rw [← hpa]; exact hnot p hp
    have hsub' : ∀ i, i ∈ D' → i ∈ D.filter (· ≠ base w.g a) := fun i hi => mem_without.2 ⟨hsub i hi, by rw [hbase]; rintro rfl; exact haD hi⟩
    refine ⟨w', ?_, s'.inv, s'.data.mask hsub' (fun i hi => ?_) (fun i hi => ?_) (fun i hi => ?_), s'.g, s'.grad, s'.cpu, s'.mono, ?_⟩
    · unfold materializeF
      simp only [hcop, hv, e, es, bind, Except.bind]
      exact e'
    · rw [s'.g]; exact hw.lt i (mem_without.1 hi).1
    · rw [s'.g]; exact hw.nonconst i (mem_without.1 hi).1
    · rw [s'.cpu]; exact hw.nocpu i (mem_without.1 hi).1
    · have := av a (by simpa using haf)
      rw [hbase]
      exact this.imp_right fun p => ⟨p.1, fun hm => (mem_without.1 hm).2 rfl⟩

theorem materializeG {b : Backend V} (hb : Faithful b) (hg : b.isGpu = true) {D : List Nat} {w : World V} (h : WInv b w.noData) (hw : DataG b D w) {a : Nat} (ha : a < w.g.length)
    (hargs : ArgsOK b w (.materialize a)) : ∃ w', materialize b w a = .ok w' ∧ MatG b D w w' a := by
  have hwf : WF w.g := h.wf
  have hb' := base_le hwf ha
  obtain ⟨f', e⟩ := materializeF_base (b := b) hwf ha (a + 1) (by omega)
  have hv := base_base hwf ha
  obtain ⟨hns, hnc, hsz⟩ := hargs
  rw [launchLog_base hwf ha] at hnc
  obtain ⟨w', e', hr⟩ := materialize_nonviewG hb hg h hw (a := base w.g a) (by omega) hv hns hnc (kernelSizes_of hwf ha hns (hsz hg)) f'
  have hbb : base w.g (base w.g a) = base w.g a := base_nonview hv
  refine ⟨w', by unfold materialize; rw [e]; exact e', hr.inv, ?_, hr.g, hr.grad, hr.cpu, hr.mono, ?_⟩
  · have := hr.data; rwa [hbb] at this
  · have := hr.avail; rwa [hbb] at this

theorem spoiledG_sub {D D1 : List Nat} {w w1 : World V} (hg : w1.g = w.g) (hc : w1.cpu = w.cpu) (hm : ∀ i, (w.dev i).isSome → (w1.dev i).isSome) (hs : ∀ i, i ∈ D1 → i ∈ D) (d : Option Nat) :
    ∀ i, i ∈ spoiledGpu w1 D1 d → i ∈ spoiledGpu w D d := by
  intro i hi
  cases d with
  | none => exact hs i hi
  | some f =>
    have hcb : cpuBuf w1 f = cpuBuf w f := by unfold cpuBuf; rw [hg, hc]
    simp only [spoiledGpu, hcb] at *
    split at hi
    · split
      · exact hs i hi
      · exact List.mem_cons_of_mem _ (hs i hi)
    · rename_i h1
      rw [if_neg (fun h => h1 (h.imp_right (hm f)))]
      rcases List.mem_cons.1 hi with rfl | hi
      · exact List.mem_cons_self
      · exact List.mem_cons_of_mem _ (hs i hi)

/-- What an interrupted `materialize` does. -/
structure IntG (b : Backend V) (D : List Nat) (w : World V) (d : Option Nat) (w' : World V) : Prop where
  inv : WInv b w'.noData
  data : DataG b (spoiledGpu w D d) w'
  g : w'.g = w.g
  grad : w'.grad = w.grad
  cpu : w'.cpu = w.cpu
  mono : ∀ i, (w.dev i).isSome → (w'.dev i).isSome

theorem interruptedG {b : Backend V} (hb : Faithful b) (hg : b.isGpu = true) {D : List Nat} {w : World V} (h : WInv b w.noData) (hw : DataG b D w) {a : Nat} {d : Option Nat} {w' : World V}
    (hi : Interrupted b w a d w') : a < w.g.length → NoScalarReshape w.g (base w.g a) → NoCollision (w.log ++ launchLog b.isGpu w.g a) → KernelSizes w.g (base w.g a) → IntG b D w d w' := by
  have hwf : WF w.g := h.wf
  induction hi with
  | early => intro _ _ _ _; exact ⟨h, hw, rfl, rfl, rfl, fun _ h => h⟩
  | @view a x rest d w' hc hv hx _ ih =>
    intro ha hns hnc hsz
    obtain ⟨x', hx'⟩ := view_input hv hwf ha
    rw [hx'] at hx; cases hx
    have hlt := hwf.inputs_lt ha x (by rw [hx']; simp)
    rw [base_view hwf ha hv hx'] at hns hsz
    rw [launchLog_base hwf ha, base_view hwf ha hv hx', ← launchLog_base hwf (by omega)] at hnc
    exact ih (by omega) hns hnc hsz
  | kernel hc hv e es hz hpre hpart =>
    intro ha hns hnc hsz
    rename_i a d funcs t scheds pre post p w1 w'
    have hbase : base w.g a = a := base_nonview hv
    rw [hbase] at hns hsz
    have hnot : w.g.ctx a ≠ .const := by intro hcc; rw [hcc] at hc; cases hc
    obtain ⟨funcs', t', e', hnd, _, hord, htg, hreach⟩ := convert_good hwf ha hns hv hnot
    rw [e] at e'; cases e'
    obtain ⟨scheds', es', hl, hps⟩ := schedAll_ok (isGpu := b.isGpu) htg funcs (fun _ h => h)
    rw [es] at es'; cases es'
    have hlog := launchLog_nonview (isGpu := b.isGpu) hc hv e es
    have hmap : (funcs.zip scheds).map (·.1) = funcs := by
      apply List.map_fst_zip; omega
    have hmem : ∀ q ∈ pre ++ p :: post, q ∈ funcs.zip scheds := fun q hq => by rw [hz]; exact hq
    have hfun : ∀ q ∈ pre ++ p :: post, q.1 ∈ funcs := fun q hq => by rw [← hmap]; exact List.mem_map_of_mem (hmem q hq)
    have hgood : ∀ q ∈ pre ++ p :: post, q.1 ∈ funcs ∧ ∃ F, t q.1 = some F ∧ Sched.schedule b.isGpu F = .ok q.2 :=
      fun q hq => ⟨hfun q hq, hps q (hmem q hq)⟩
    obtain ⟨w1', D1, e1, s1, hsub, hnotD, av⟩ := runFuncs_G hb hg htg pre [] (p.1 :: post.map (·.1)) D
      { w with log := w.log ++ (funcs.zip scheds).filterMap (plan1 w.g t (a + 2)) }
      (logged_noData h _) ⟨hw.cpu, hw.dev, hw.lt, hw.nonconst, hw.nocpu, hw.ev.world fun _ _ h => h⟩ rfl (by rw [← hlog]; exact hnc)
      (fun q hq => hgood q (by simp [hq]))
      (fun q hq F hF => hsz funcs t e q.1 (hfun q (by simp [hq])) F hF)
      (fun q hq r hr => List.mem_append_right _ (List.mem_filterMap.2 ⟨q, hmem q (by simp [hq]), hr⟩))
      (by rw [← hmap, hz] at hord; simpa using hord) (by simp)
    rw [hpre] at e1; cases e1
    obtain ⟨hpf, F, hF, hsch⟩ := hgood p (by simp)
    have hgg : w1.g = w.g := s1.g
    obtain ⟨s2, hdp⟩ := runPart_G (a := a) (S := (· ∈ funcs)) hb hg s1.inv s1.data (by rw [hgg]; exact htg) hpf hF hsch (by rw [hgg]; exact hsz funcs t e p.1 hpf F hF)
      (fun d hd' => av d (by
        have := hord (pre.map (·.1)) p.1 (post.map (·.1)) (by rw [← hmap, hz]; simp) F hF d hd'
        simpa using this)) (by rw [s1.log]; rw [← hlog]; exact hnc)
      (fun q hq => by
        rw [hgg] at hq
        rw [s1.log]
        exact List.mem_append_right _ (List.mem_filterMap.2 ⟨p, hmem p (by simp), hq⟩)) (d := d) (w' := w') hpart
    have hcc : w'.cpu = w.cpu := s2.cpu.trans s1.cpu
    have hsub2 := spoiledG_sub (D := D) (w := w) hgg s1.cpu s1.mono hsub d
    have hfl : p.1 < w.g.length ∧ w.g.ctx p.1 ≠ .const := by
      obtain ⟨_, h1, F', h2, h3, _⟩ := htg.entry p.1 hpf
      exact ⟨h3.lt, h1⟩
    refine ⟨s2.inv, s2.data.mask hsub2 (fun i hi => ?_) (fun i hi => ?_) (fun i hi => ?_), s2.g.trans hgg, s2.grad.trans s1.grad, hcc, fun i hs => s2.mono i (s1.mono i hs)⟩
    · rw [s2.g, hgg]
      rcases mem_spoiledG hi with hi | hi
      · rw [hdp i (by rw [hi.1]; rfl)]; exact hfl.1
      · exact hw.lt i hi
    · rw [s2.g, hgg]
      rcases mem_spoiledG hi with hi | hi
      · rw [hdp i (by rw [hi.1]; rfl)]; exact hfl.2
      · exact hw.nonconst i hi
    · rw [hcc]
      rcases mem_spoiledG hi with hi | hi
      · have := hi.2.1
        unfold cpuBuf at this
        exact (Option.or_eq_none_iff.1 this).1
      · exact hw.nocpu i hi

/-! ### histories -/

/-- The invariant of programs whose calls may be interrupted. -/
structure InvXG (b : Backend V) (D : List Nat) (w : World V) : Prop where
  inv : InvG False b w.noData
  data : DataG b D w

/-- What survives. -/
structure LaterXG (w w' : World V) : Prop where
  ext : Ext w.g w'.g
  cpu : ∀ i, (w.cpu i).isSome → (w'.cpu i).isSome
  dev : ∀ i, (w.dev i).isSome → (w'.dev i).isSome

theorem InvXG.init (b : Backend V) : InvXG b [] (Mat.init : World V) := by
  have h := Inv.init b
  have e : (Mat.init : World V).noData = Mat.init := rfl
  refine ⟨by rw [e]; exact ⟨h.winv, h.nn, h.gs, False.elim⟩, ?_, ?_, by simp, by simp, by simp, EvX.init⟩
  · intro i l hl; cases hl
  · intro i l hl; cases hl

theorem LaterXG.refl (w : World V) : LaterXG w w := ⟨.refl _, fun _ h => h, fun _ h => h⟩
theorem LaterXG.trans {w w' w'' : World V} (h : LaterXG w w') (k : LaterXG w' w'') : LaterXG w w'' := ⟨h.ext.trans k.ext, fun i hi => k.cpu i (h.cpu i hi), fun i hi => k.dev i (h.dev i hi)⟩

theorem madeE_noData (w : World V) (p : Except Err (Nat × Graph V)) : madeE w.noData p = (madeE w p).map fun q => (q.1, q.2.noData) := by
  cases p <;> rfl

theorem exec1_noData (b : Backend V) (w : World V) {c : Call V} (hq : quiet c = true) : exec1 b w.noData c = (exec1 b w c).map fun q => (q.1, q.2.noData) := by
  cases c <;> first | (cases hq; done) | rfl | exact madeE_noData w _

theorem exec1_ev {b : Backend V} {w w' : World V} {c : Call V} {o : Out V} (hq : quiet c = true) (h : exec1 b w c = .ok (o, w')) : w'.ev = w.ev := by
  cases c <;> first | (cases hq; done) | (obtain ⟨_, rfl⟩ := made_eq h; rfl) | (obtain ⟨r, g', _, _, rfl⟩ := madeE_eq h; rfl) | (simp only [exec1] at h; cases h; rfl)

theorem argsOK_noData {b : Backend V} {w : World V} {c : Call V} (h : ArgsOK b w c) : ArgsOK b w.noData c := by
  cases c <;> exact h

theorem DataG.ext {b : Backend V} {D : List Nat} {w w' : World V} (h : DataG b D w) (he : Ext w.g w'.g) (hw : WF w'.g) (hc : w'.cpu = w.cpu) (hd : w'.dev = w.dev) (hev : w'.ev = w.ev) : DataG b D w' := by
  refine ⟨fun i l hl => ?_, fun i l hl => ?_, fun i hi => Nat.lt_of_lt_of_le (h.lt i hi) he.length, fun i hi => by rw [he.ctx (h.lt i hi)]; exact h.nonconst i hi,
    fun i hi => by rw [hc]; exact h.nocpu i hi, by
      rw [hd, hev]
      refine h.ev.world fun i hi hs => ?_
      obtain ⟨l, hl⟩ := Option.isSome_iff_exists.1 hi
      unfold cpuBuf at *
      rw [hc, he.nd (h.dev i l hl).1]; exact hs⟩
  · rw [hc] at hl
    obtain ⟨h1, h2⟩ := h.cpu i l hl
    exact ⟨Nat.lt_of_lt_of_le h1 he.length, by rw [den_ext b.A he hw h1]; exact h2⟩
  · rw [hd] at hl
    obtain ⟨h1, h2, h3⟩ := h.dev i l hl
    refine ⟨Nat.lt_of_lt_of_le h1 he.length, by rw [den_ext b.A he hw h1]; exact h2, fun hn hcb => ?_⟩
    rw [den_ext b.A he hw h1]
    refine h3 hn ?_
    unfold cpuBuf at *
    rw [hc, he.nd h1] at hcb; exact hcb

/-- Making a host copy of an array that is not incomplete. -/
theorem ensureG {b : Backend V} {D : List Nat} {w w' : World V} (h : InvXG b D w) {x : Nat} (hD : x ∉ D) (he : ensureCpu b w x = .ok w') :
    InvXG b D w' ∧ LaterXG w w' ∧ w'.g = w.g ∧ (cpuBuf w' x).isSome ∧ AvailG D w x := by
  unfold ensureCpu at he
  split at he
  · rename_i l hl
    cases he
    exact ⟨h, .refl w, rfl, by rw [hl]; rfl, .inl (by rw [hl]; rfl)⟩
  · rename_i hn
    split at he
    case isFalse => cases he
    split at he
    case h_2 => cases he
    rename_i l hl
    cases he
    obtain ⟨h1, _, h3⟩ := h.data.dev x l hl
    have hval := h3 hD hn
    refine ⟨⟨⟨⟨h.inv.winv.wf, h.inv.winv.nn, h.inv.winv.cpu, h.inv.winv.dev, h.inv.winv.cache, h.inv.winv.ev⟩, h.inv.nn, h.inv.gs, False.elim⟩, ⟨?_, ?_, h.data.lt, h.data.nonconst, ?_, ?_⟩⟩,
      ⟨.refl _, ?_, fun _ h => h⟩, rfl, ?_, .inr ⟨by rw [hl]; rfl, hD⟩⟩
    · intro i l' hl'
      simp only at hl'
      by_cases e : i = x
      · subst e; rw [upd_same] at hl'; cases hl'; exact ⟨h1, hval⟩
      · rw [upd_ne _ _ e] at hl'; exact h.data.cpu i l' hl'
    · intro i l' hl'
      obtain ⟨k1, k2, k3⟩ := h.data.dev i l' hl'
      refine ⟨k1, k2, fun hni hcb => k3 hni ?_⟩
      by_cases e : i = x
      · subst e; exact hn
      · unfold cpuBuf at *
        simpa only [upd_ne _ _ e] using hcb
    · intro i hi
      simp only
      rw [upd_ne _ _ (by rintro rfl; exact hD hi)]; exact h.data.nocpu i hi
    · have hsome : (w.dev x).isSome := by rw [hl]; rfl
      have hsrc : ∃ ins, Since w.ev x (.launch x ins) := by
        rcases h.data.ev.src x hsome with h2 | h2 | h2
        · exact absurd h2 hD
        · rw [hn] at h2; cases h2
        · exact h2
      refine (h.data.ev.touch (e := .copyOut x) ⟨(h.data.ev.dev x).1 hsome, hsrc⟩ (by simp) (by simp)).world fun i _ hs => ?_
      by_cases e : i = x
      · subst e; simp [cpuBuf, upd_same]
      · unfold cpuBuf at *
        simpa only [upd_ne _ _ e] using hs
    · intro i hi
      simp only
      by_cases e : i = x
      · subst e; rw [upd_same]; rfl
      · rw [upd_ne _ _ e]; exact hi
    · simp [cpuBuf, upd_same]

theorem ensureG_ok {b : Backend V} (hg : b.isGpu = true) {D : List Nat} {w : World V} {x : Nat} (h : AvailG D w x) : ∃ w', ensureCpu b w x = .ok w' := by
  unfold ensureCpu
  cases hc : cpuBuf w x with
  | some l => exact ⟨w, rfl⟩
  | none =>
    rcases h with h | h
    · rw [hc] at h; cases h
    · obtain ⟨l, hl⟩ := Option.isSome_iff_exists.1 h.1
      simp only [hg, if_true, hl]
      exact ⟨_, rfl⟩

/-- Reading. -/
theorem tolist_invG {b : Backend V} {D : List Nat} {w : World V} (h : InvXG b D w) {a : Nat} (hD : base w.g a ∉ D) {p : Nested V × World V} (ht : tolist b w a = .ok p) :
    InvXG b D p.2 ∧ LaterXG w p.2 ∧ AvailG D w (base w.g a) := by
  unfold tolist at ht
  obtain ⟨w1, h1, h2⟩ := except_bind_ok ht
  obtain ⟨k1, k2, k3, k4, k5⟩ := ensureG h hD h1
  split at h2
  · obtain ⟨q, _, h3⟩ := except_bind_ok h2
    cases h3; exact ⟨k1, k2, k5⟩
  · cases h2

theorem tolistG {b : Backend V} (hg : b.isGpu = true) {D : List Nat} {w : World V} (h : InvXG b D w) {a : Nat} (ha : a < w.g.length) (hD : base w.g a ∉ D) (hno : NoOffsetReshape w.g a)
    (hav : AvailG D w (base w.g a)) : ∃ w', tolist b w a = .ok ((den b.A w.g a).toNested, w') := by
  have hwf : WF w.g := h.inv.winv.wf
  have hbl := Nat.lt_of_le_of_lt (base_le hwf ha) ha
  obtain ⟨w1, e⟩ := ensureG_ok hg hav
  obtain ⟨k1, _, k3, k4, _⟩ := ensureG h hD e
  obtain ⟨l, hl⟩ := Option.isSome_iff_exists.1 k4
  have hval : l = (den b.A w1.g (base w.g a)).flatten := cpuBuf_okG (w := w1) k1.inv.winv.wf k1.data (by rw [k3]; exact hbl) hl
  refine ⟨w1, ?_⟩
  unfold tolist
  rw [e]
  simp only [bind, Except.bind]
  rw [k3, hl]
  simp only
  rw [hval, k3, toNdlist_den b.A hwf ha hno]; rfl

theorem LaterXG.avail {D D' : List Nat} {w w' : World V} (h : LaterXG w w') {i : Nat} (hi : i < w.g.length) (hn : i ∉ D') (ha : AvailG D w i) : AvailG D' w' i :=
  ha.imp (cpuBuf_mono (h.ext.nd hi) (h.cpu i)) fun p => ⟨h.dev i p.1, hn⟩

theorem next_okG {b : Backend V} (hb : Faithful b) (hg : b.isGpu = true) {D : List Nat} {w w' : World V} (h : InvXG b D w) {c : Call V} (hl : Legal b w c)
    (hr : ∀ a, c = .tolist a → base w.g a ∉ D) (hn : next b w c = some w') : InvXG b (repaired w D c) w' ∧ LaterXG w w' := by
  have hwf : WF w.g := h.inv.winv.wf
  unfold next at hn
  cases hs : step b w c with
  | error e =>
    rw [hs] at hn
    simp only at hn
    split at hn
    · rename_i hat
      cases hn
      have : repaired w D c = D := by cases c <;> first | rfl | cases hat
      rw [this]
      exact ⟨h, .refl w⟩
    · cases hn
  | ok p =>
    obtain ⟨o, w1⟩ := p
    rw [hs] at hn
    cases hn
    have ha : ArgsOK b w c := hl.resolve_left (by rintro ⟨e, he⟩; rw [hs] at he; cases he)
    clear hl
    unfold step at hs
    split at hs
    case isFalse => cases hs
    rename_i hin
    by_cases hq : quiet c = true
    · have hs' : step b w.noData c = .ok (o, w'.noData) := by
        unfold step
        rw [if_pos (show ∀ a ∈ c.arrays, a < w.noData.g.length from hin), exec1_noData b w hq, hs]; rfl
      have hok := step_ok hb h.inv (argsOK_noData ha) hs'
      have hk := exec1_keeps hq hs
      rw [quiet_repaired hq]
      exact ⟨⟨hok.inv, h.data.ext hok.later.ext hok.inv.winv.wf hk.1 hk.2 (exec1_ev hq hs)⟩, hok.later.ext, fun i hi => by rw [hk.1]; exact hi, fun i hi => by rw [hk.2]; exact hi⟩
    · rcases notQuiet hq with ⟨a, rfl⟩ | ⟨a, rfl⟩ | ⟨a, rfl⟩
      · have hal := hin a (by simp [Call.arrays])
        obtain ⟨w2, e, r⟩ := materializeG hb hg h.inv.winv h.data hal ha
        simp only [exec1, e] at hs
        cases hs
        refine ⟨⟨⟨r.inv, ?_, ?_, False.elim⟩, r.data⟩, by rw [r.g]; exact .refl _, fun i hi => by rw [r.cpu]; exact hi, r.mono⟩
        · have : NN w'.g := by rw [r.g]; exact h.inv.nn
          exact this
        · intro i k hk
          have hk' : w'.grad i = some k := hk
          rw [r.grad] at hk'
          have := h.inv.gs i k hk'
          show i < w'.g.length ∧ k < w'.g.length ∧ w'.g.shape k = w'.g.shape i
          rw [r.g]; exact this
      · simp only [exec1] at hs
        cases ht : tolist b w a with
        | error e => rw [ht] at hs; cases hs
        | ok p =>
          rw [ht] at hs
          cases hs
          have := tolist_invG h (hr a rfl) ht
          exact ⟨this.1, this.2.1⟩
      · have hal := hin a (by simp [Call.arrays])
        have hgs : GradShapes w := h.inv.gs
        obtain ⟨w2, order, e, r⟩ := backward_ok b.A hwf h.inv.nn hgs hal ha
        simp only [exec1, e] at hs
        cases hs
        have hst := r.step
        have hrest := hst.rest
        have hw := h.inv.winv.ext hst.ext hst.wf hst.nn w'.grad
        have hcpu : w'.cpu = w.cpu := by rw [hrest]
        have hdev : w'.dev = w.dev := by rw [hrest]
        refine ⟨⟨⟨?_, hst.nn, hst.gs, False.elim⟩, h.data.ext hst.ext hst.wf hcpu hdev (by rw [hrest])⟩, hst.ext, fun i hi => by rw [hcpu]; exact hi, fun i hi => by rw [hdev]; exact hi⟩
        have e2 : w'.noData = { w.noData with g := w'.g, grad := w'.grad } := by
          conv => lhs; rw [hrest]
          rfl
        rw [e2]; exact hw

theorem stopped_okG {b : Backend V} {D : List Nat} {w w' : World V} (h : InvXG b D w) {y : Nat} (hy : y < w.g.length) (ha : ArgsOK b w (.backward y)) (hs : Bwd.Stopped b.A w y w') :
    InvXG b D w' ∧ LaterXG w w' := by
  have hgs : GradShapes w := h.inv.gs
  have hwf : WF w.g := h.inv.winv.wf
  have hst := (hs.bstep b.A hwf h.inv.nn hgs hy ha).1
  have hrest := hst.rest
  have hw := h.inv.winv.ext hst.ext hst.wf hst.nn w'.grad
  have hcpu : w'.cpu = w.cpu := by rw [hrest]
  have hdev : w'.dev = w.dev := by rw [hrest]
  refine ⟨⟨⟨?_, hst.nn, hst.gs, False.elim⟩, h.data.ext hst.ext hst.wf hcpu hdev (by rw [hrest])⟩, hst.ext, fun i hi => by rw [hcpu]; exact hi, fun i hi => by rw [hdev]; exact hi⟩
  have e2 : w'.noData = { w.noData with g := w'.g, grad := w'.grad } := by
    conv => lhs; rw [hrest]
    rfl
  rw [e2]; exact hw

theorem crash_okG {b : Backend V} (hb : Faithful b) (hg : b.isGpu = true) {D : List Nat} {w w' : World V} (h : InvXG b D w) {a : Nat} (ha : a < w.g.length) (hargs : ArgsOK b w (.materialize a))
    {d : Option Nat} (hi : Interrupted b w a d w') : InvXG b (spoiledGpu w D d) w' ∧ LaterXG w w' := by
  have r := interruptedG hb hg h.inv.winv h.data hi ha hargs.1 hargs.2.1 (kernelSizes_of h.inv.winv.wf ha hargs.1 (hargs.2.2 hg))
  refine ⟨⟨⟨r.inv, ?_, ?_, False.elim⟩, r.data⟩, by rw [r.g]; exact .refl _, fun i hi => by rw [r.cpu]; exact hi, r.mono⟩
  · have : NN w'.g := by rw [r.g]; exact h.inv.nn
    exact this
  · intro i k hk
    have hk' : w'.grad i = some k := hk
    rw [r.grad] at hk'
    have := h.inv.gs i k hk'
    show i < w'.g.length ∧ k < w'.g.length ∧ w'.g.shape k = w'.g.shape i
    rw [r.g]; exact this

theorem RunsXG.later {b : Backend V} (hb : Faithful b) (hg : b.isGpu = true) {D D' : List Nat} {w w' : World V} (h : InvXG b D w) (hr : RunsXG b w D w' D') : InvXG b D' w' ∧ LaterXG w w' := by
  induction hr with
  | refl => exact ⟨h, .refl w⟩
  | call _ hl ht hn ih =>
    have := next_okG hb hg ih.1 hl ht hn
    exact ⟨this.1, ih.2.trans this.2⟩
  | stopped _ hy ha hs ih =>
    have := stopped_okG ih.1 hy ha hs
    exact ⟨this.1, ih.2.trans this.2⟩
  | crash _ ha hargs hi ih =>
    have := crash_okG hb hg ih.1 ha hargs hi
    exact ⟨this.1, ih.2.trans this.2⟩

theorem ReachableXG.inv {b : Backend V} (hb : Faithful b) (hg : b.isGpu = true) {D : List Nat} {w : World V} (h : ReachableXG b w D) : InvXG b D w :=
  (RunsXG.later hb hg (.init b) h).1

/-- An available array does not become incomplete. -/
theorem RunsXG.notMem {b : Backend V} (hb : Faithful b) (hg : b.isGpu = true) {D D' : List Nat} {w w' : World V} (h : InvXG b D w) {i : Nat} (hi : i < w.g.length) (hD : i ∉ D)
    (hav : AvailG D w i) (hr : RunsXG b w D w' D') : i ∉ D' := by
  induction hr with
  | refl => exact hD
  | @call w1 w' D1 c h1 _ _ _ ih =>
    intro hm
    cases c <;> first | exact ih hm | exact ih (mem_without.1 hm).1
  | stopped _ _ _ _ ih => exact ih
  | @crash w1 w' D1 a' d h1 _ _ _ ih =>
    intro hm
    have hav1 : AvailG D1 w1 i := (h1.later hb hg h).2.avail hi ih hav
    rcases mem_spoiledG hm with ⟨_, h2, h3⟩ | hm
    · rcases hav1 with hav1 | hav1
      · rw [h2] at hav1; cases hav1
      · rw [h3] at hav1; cases hav1.1
    · exact ih hm

/-- A program without interruption is a program. -/
theorem Reachable.xg {b : Backend V} {w : World V} (h : Reachable b w) : ReachableXG b w [] := by
  induction h with
  | init => exact .refl
  | @call w w' c _ hl hn ih =>
    have : repaired w [] c = [] := by cases c <;> rfl
    have h2 := RunsXG.call ih hl (by simp) hn
    rwa [this] at h2
  | stopped _ hy ha hs ih => exact .stopped ih hy ha hs

end Whale
