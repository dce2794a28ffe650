import Verif.Proofs.CrashCollect
import Verif.Proofs.CrashTraceB
/-
Garbage collection is invisible also in programs whose `materialize` is interrupted: histories.
-/
namespace Whale
open Mat Hist Algo
variable {V : Type}

/-! #### histories without collection, on either kind of backend -/

theorem RunsXOn.refl {b : Backend V} {w : World V} {D : List Nat} : RunsXOn b w D w D := by
  unfold RunsXOn; split
  · exact .refl
  · exact .refl

theorem RunsXOn.call {b : Backend V} {w w1 w' : World V} {D D1 : List Nat} {c : Call V} {o : Out V} (h : RunsXOn b w D w1 D1) (hok : ArgsOK b w1 c)
    (ht : b.isGpu = true → ∀ a, c = .tolist a → base w1.g a ∉ D1) (hs : step b w1 c = .ok (o, w')) : RunsXOn b w D w' (repaired w1 D1 c) := by
  unfold RunsXOn at *
  by_cases hg : b.isGpu = true
  · rw [if_pos hg] at *; exact .call h (.inr hok) (ht hg) (by unfold next; rw [hs])
  · rw [if_neg hg] at *; exact .call h (.inr hok) (by unfold next; rw [hs])

theorem RunsXOn.stopped {b : Backend V} {w w1 w' : World V} {D D1 : List Nat} {y : Nat} (h : RunsXOn b w D w1 D1) (hy : y < w1.g.length) (hok : ArgsOK b w1 (.backward y))
    (hs : Bwd.Stopped b.A w1 y w') : RunsXOn b w D w' D1 := by
  unfold RunsXOn at *
  by_cases hg : b.isGpu = true
  · rw [if_pos hg] at *; exact .stopped h hy hok hs
  · rw [if_neg hg] at *; exact .stopped h hy hok hs

theorem RunsXOn.crash {b : Backend V} {w w1 w' : World V} {D D1 : List Nat} {a : Nat} {d : Option Nat} (h : RunsXOn b w D w1 D1) (ha : a < w1.g.length) (hok : ArgsOK b w1 (.materialize a))
    (hs : Interrupted b w1 a d w') : RunsXOn b w D w' (spoiledOn b w1 D1 d) := by
  unfold RunsXOn spoiledOn at *
  by_cases hg : b.isGpu = true
  · rw [if_pos hg] at *; rw [if_pos hg]; exact .crash h ha hok hs
  · rw [if_neg hg] at *; rw [if_neg hg]; exact .crash h ha hok hs

theorem RunsX.trans {b : Backend V} {w w1 w2 : World V} {D D1 D2 : List Nat} (h : RunsX b w D w1 D1) (k : RunsX b w1 D1 w2 D2) : RunsX b w D w2 D2 := by
  induction k with
  | refl => exact h
  | call _ h1 h2 ih => exact .call ih h1 h2
  | stopped _ h1 h2 h3 ih => exact .stopped ih h1 h2 h3
  | crash _ h1 h2 h3 ih => exact .crash ih h1 h2 h3

theorem RunsXG.trans {b : Backend V} {w w1 w2 : World V} {D D1 D2 : List Nat} (h : RunsXG b w D w1 D1) (k : RunsXG b w1 D1 w2 D2) : RunsXG b w D w2 D2 := by
  induction k with
  | refl => exact h
  | call _ h1 h2 h3 ih => exact .call ih h1 h2 h3
  | stopped _ h1 h2 h3 ih => exact .stopped ih h1 h2 h3
  | crash _ h1 h2 h3 ih => exact .crash ih h1 h2 h3

theorem RunsXOn.trans {b : Backend V} {w w1 w2 : World V} {D D1 D2 : List Nat} (h : RunsXOn b w D w1 D1) (k : RunsXOn b w1 D1 w2 D2) : RunsXOn b w D w2 D2 := by
  unfold RunsXOn at *
  by_cases hg : b.isGpu = true
  · rw [if_pos hg] at *; exact h.trans k
  · rw [if_neg hg] at *; exact h.trans k

theorem ReachableXOn.cpu {b : Backend V} {w : World V} {D : List Nat} (h : ReachableXOn b w D) (hg : b.isGpu = false) : ReachableX b w D := by
  unfold ReachableXOn RunsXOn at h; rw [if_neg (by simp [hg])] at h; exact h

theorem ReachableXOn.gpu {b : Backend V} {w : World V} {D : List Nat} (h : ReachableXOn b w D) (hg : b.isGpu = true) : ReachableXG b w D := by
  unfold ReachableXOn RunsXOn at h; rw [if_pos hg] at h; exact h

theorem ReachableXOn.core {b : Backend V} (hb : Faithful b) {w : World V} {D : List Nat} (h : ReachableXOn b w D) : Core w := by
  cases hg : b.isGpu with
  | true => have hi := (h.gpu hg).inv hb hg; exact ⟨hi.inv.winv.wf, hi.inv.nn, hi.inv.gs⟩
  | false => have hi := (h.cpu hg).inv hb hg; exact ⟨hi.inv.winv.wf, hi.inv.nn, hi.inv.gs⟩

theorem RunsXOn.ext {b : Backend V} (hb : Faithful b) {w w' : World V} {D D' : List Nat} (h : ReachableXOn b w D) (hr : RunsXOn b w D w' D') : Ext w.g w'.g := by
  unfold RunsXOn at hr
  cases hg : b.isGpu with
  | true => rw [if_pos hg] at hr; exact (hr.later hb hg ((h.gpu hg).inv hb hg)).2.ext
  | false => rw [if_neg (by simp [hg])] at hr; exact (hr.later hb hg ((h.cpu hg).inv hb hg)).2.ext

theorem step_in {b : Backend V} {w w' : World V} {c : Call V} {o : Out V} (hs : step b w c = .ok (o, w')) : (∀ a ∈ c.arrays, a < w.g.length) ∧ exec1 b w c = .ok (o, w') := by
  unfold step at hs
  split at hs
  · rename_i hin; exact ⟨hin, hs⟩
  · cases hs

/-- The array a call returns exists. -/
theorem new_lt {b : Backend V} (hb : Faithful b) {w w' : World V} {D : List Nat} (h : ReachableXOn b w D) {c : Call V} (ha : ArgsOK b w c) {r : Nat} (hs : step b w c = .ok (.arr r, w')) :
    r < w'.g.length := by
  obtain ⟨hin, he⟩ := step_in hs
  by_cases hq : quiet c = true
  · cases hg : b.isGpu with
    | true =>
      have hi := (h.gpu hg).inv hb hg
      have hs' : step b w.noData c = .ok (.arr r, w'.noData) := by
        unfold step
        rw [if_pos (show ∀ a ∈ c.arrays, a < w.noData.g.length from hin), exec1_noData b w hq, he]; rfl
      exact (step_ok hb hi.inv (argsOK_noData ha) hs').lt r rfl
    | false =>
      have hi := (h.cpu hg).inv hb hg
      have hs' : step b (w.clean D) c = .ok (.arr r, w'.clean D) := by
        unfold step
        rw [if_pos (show ∀ a ∈ c.arrays, a < (w.clean D).g.length from hin), exec1_clean b D w hq, he]; rfl
      exact (step_ok hb hi.inv (argsOK_clean ha) hs').lt r rfl
  · rcases notQuiet hq with ⟨a, rfl⟩ | ⟨a, rfl⟩ | ⟨a, rfl⟩
    · simp only [exec1] at he
      obtain ⟨x, _, e⟩ := except_bind_ok he
      cases e
    · simp only [exec1] at he
      obtain ⟨x, _, e⟩ := except_bind_ok he
      cases e
    · simp only [exec1] at he
      obtain ⟨x, _, e⟩ := except_bind_ok he
      cases e

/-! #### the simulation -/

/-- World `w` of a program with collections and interruptions, and the world `v` the same program is in when nothing is collected. -/
structure SimX (b : Backend V) (w : World V) (R G D : List Nat) (v : World V) : Prop where
  reach : ReachableXOn b v D
  agree : Agree (· ∉ G) w v
  held : ∀ i ∈ R, i < w.g.length
  dead : ∀ i ∈ G, i < w.g.length ∧ ¬ Live w R i
  gone : ∀ i ∈ G, w.cpu i = none ∧ w.dev i = none ∧ w.grad i = none
  trace : b.isGpu = true → TrX G w.ev v.ev

theorem SimX.init (b : Backend V) : SimX b (Mat.init : World V) [] [] [] Mat.init := ⟨.refl, ⟨rfl, fun _ _ => rfl, fun _ _ => rfl, fun _ _ => rfl, rfl⟩, by simp, by simp, by simp, fun _ => .init⟩

theorem SimX.core {b : Backend V} (hb : Faithful b) {w v : World V} {R G D : List Nat} (s : SimX b w R G D v) : Core w := by
  have h := s.reach.core hb
  have hg := s.agree.graph
  refine ⟨hg ▸ h.wf, hg ▸ h.nn, fun i k hk => ?_⟩
  by_cases hG : i ∈ G
  · rw [(s.gone i hG).2.2] at hk; cases hk
  · rw [← s.agree.grad i hG] at hk
    have := h.gs i k hk
    rw [hg] at this; exact this

theorem SimX.sub {b : Backend V} {w v : World V} {R G D : List Nat} (s : SimX b w R G D v) : ∀ i, Live w R i ∨ w.g.length ≤ i → i ∉ G :=
  fun i hi hG => hi.elim (s.dead i hG).2 (by have := (s.dead i hG).1; omega)

/-- After a step of both programs that touches only arrays that are alive or new. -/
theorem SimX.next {b : Backend V} (hb : Faithful b) {w v w' v' : World V} {R R' G D D' : List Nat} (s : SimX b w R G D v) (hr : ReachableXOn b v' D') (hx : Ext w.g w'.g)
    (ha : Agree (fun i => Live w R i ∨ w.g.length ≤ i) w' v') (f1 : ∀ i, ¬ (Live w R i ∨ w.g.length ≤ i) → w'.cpu i = w.cpu i ∧ w'.dev i = w.dev i ∧ w'.grad i = w.grad i)
    (f2 : ∀ i, ¬ (Live w R i ∨ w.g.length ≤ i) → v'.cpu i = v.cpu i ∧ v'.dev i = v.dev i ∧ v'.grad i = v.grad i)
    (hheld : ∀ i ∈ R', i < w'.g.length) (hlive : ∀ i, Live w' R' i → Live w R i ∨ w.g.length ≤ i)
    (em1 : Emits w w') (em2 : Emits v v') : SimX b w' R' G D' v' := by
  have hnot : ∀ i ∈ G, ¬ (Live w R i ∨ w.g.length ≤ i) := fun i hi h => s.sub i h hi
  refine ⟨hr, ⟨ha.same, fun i hi => ?_, fun i hi => ?_, fun i hi => ?_, ha.ev⟩, hheld, fun i hi => ⟨Nat.lt_of_lt_of_le (s.dead i hi).1 hx.length, fun hl => hnot i hi (hlive i hl)⟩, fun i hi => ?_,
    fun hg => (s.trace hg).step s.agree.ev ha.ev em1 em2 ((hr.gpu hg).inv hb hg).data.ev.ok fun i hi => ?_⟩
  · by_cases hp : Live w R i ∨ w.g.length ≤ i
    · exact ha.cpu i hp
    · rw [(f1 i hp).1, (f2 i hp).1]; exact s.agree.cpu i hi
  · by_cases hp : Live w R i ∨ w.g.length ≤ i
    · exact ha.dev i hp
    · rw [(f1 i hp).2.1, (f2 i hp).2.1]; exact s.agree.dev i hi
  · by_cases hp : Live w R i ∨ w.g.length ≤ i
    · exact ha.grad i hp
    · rw [(f1 i hp).2.2, (f2 i hp).2.2]; exact s.agree.grad i hi
  · obtain ⟨e1, e2, e3⟩ := f1 i (hnot i hi)
    rw [e1, e2, e3]; exact s.gone i hi
  · rw [(f1 i (hnot i hi)).2.1]; exact (s.gone i hi).2.1

theorem Cl.reachAll {P : Nat → Prop} {N : Nat} {g : Graph V} (h : Cl P N g) (hw : WF g) {a : Nat} (ha : a < g.length) (hp : P a) : ∀ i, Reach g a i → P i := fun _ hr => h.reach hw ha hp hr

theorem agree_spoiled {b : Backend V} {P : Nat → Prop} {w v : World V} (h : Agree P w v) {D : List Nat} {d : Option Nat} (hd : ∀ x, d = some x → P x) : spoiledOn b v D d = spoiledOn b w D d := by
  cases d with
  | none => rfl
  | some f =>
    unfold spoiledOn spoiledGpu spoiled
    simp only [h.cpuBuf (hd f rfl), h.dev f (hd f rfl)]

theorem RunsGX.sim {b : Backend V} (hb : Faithful b) {w w' v : World V} {R G D R' G' D' : List Nat} (s : SimX b w R G D v) (hr : RunsGX b w R G D w' R' G' D') :
    ∃ v', RunsXOn b v D v' D' ∧ SimX b w' R' G' D' v' ∧ G ⊆ G' := by
  induction hr with
  | refl => exact ⟨v, .refl, s, fun _ h => h⟩
  | @call w1 w' R1 G1 D1 c o hr1 hc hok ht hs ih =>
    obtain ⟨v1, hv1, s1, hsub⟩ := ih
    have cw := s1.core hb
    have cv := s1.reach.core hb
    have haP := s1.agree.mono s1.sub
    have hcl := live_wclX cw R1
    have hP : ∀ a ∈ c.arrays, Live w1 R1 a ∨ w1.g.length ≤ a := fun a ha => .inl (.root (hc a ha))
    have rel := agree_stepX (b := b) cw haP hcl hP (fun a e => by subst e; exact hok.1)
    rw [hs] at rel
    obtain ⟨⟨o', v'⟩, hsv, rfl, ha'⟩ := rel.ok
    have hokv := hok.agree haP
    have k1 := cl_stepX cw hcl hP hok _ hs
    have k2 := cl_stepX cv (haP.wcl hcl) hP hokv _ hsv
    have hrun : RunsXOn b v1 D1 v' (repaired v1 D1 c) := RunsXOn.call .refl hokv (fun hg a e => by rw [s1.agree.graph]; exact ht hg a e) hsv
    have hD : repaired v1 D1 c = repaired w1 D1 c := by cases c <;> first | rfl | (simp only [repaired, s1.agree.graph])
    rw [hD] at hrun
    have hx : Ext w1.g w'.g := by
      have := hrun.ext hb s1.reach
      rwa [s1.agree.graph, ha'.graph] at this
    refine ⟨v', hv1.trans hrun, s1.next hb (RunsXOn.trans s1.reach hrun) hx ha' k1.2.out k2.2.out (fun i hi => ?_) (fun i hl => ?_) ?_ ?_, hsub⟩
    · cases o with
      | arr r =>
        rcases List.mem_cons.1 hi with rfl | hi
        · have := new_lt hb s1.reach hokv hsv
          rwa [ha'.graph] at this
        · exact Nat.lt_of_lt_of_le (s1.held i hi) hx.length
      | list l => exact Nat.lt_of_lt_of_le (s1.held i hi) hx.length
      | unit => exact Nat.lt_of_lt_of_le (s1.held i hi) hx.length
    · refine k1.2.live (fun i h => inputs_lt_length i h) (fun j hj => ?_) hl
      cases o with
      | arr r =>
        rcases List.mem_cons.1 hj with rfl | hj
        · exact k1.1 _ rfl
        · exact .inl (.root hj)
      | list l => exact .inl (.root hj)
      | unit => exact .inl (.root hj)
    · exact step_emits cw.wf cw.nn cw.gs (fun y e => by subst e; exact hok) hs
    · exact step_emits cv.wf cv.nn cv.gs (fun y e => by subst e; exact hokv) hsv
  | raise _ _ _ _ ih => exact ih
  | @stopped w1 w' R1 G1 D1 y hr1 hy hok hs ih =>
    obtain ⟨v1, hv1, s1, hsub⟩ := ih
    have cw := s1.core hb
    have cv := s1.reach.core hb
    have hyl := s1.held y hy
    have haP := s1.agree.mono s1.sub
    have hcl := live_wclX cw R1
    obtain ⟨v', hsv, ha'⟩ := agree_stopped haP cw.wf cw.nn cw.gs hcl hyl (.inl (.root hy)) hs
    have hyv : y < v1.g.length := by rw [s1.agree.graph]; exact hyl
    have k1 := cl_stopped cw.wf cw.nn cw.gs hcl hyl (.inl (.root hy)) hs
    have k2 := cl_stopped cv.wf cv.nn cv.gs (haP.wcl hcl) hyv (.inl (.root hy)) hsv
    have hrun : RunsXOn b v1 D1 v' D1 := RunsXOn.stopped .refl hyv (hok.agree haP) hsv
    have hx : Ext w1.g w'.g := by
      have := hrun.ext hb s1.reach
      rwa [s1.agree.graph, ha'.graph] at this
    exact ⟨v', hv1.trans hrun, s1.next hb (RunsXOn.trans s1.reach hrun) hx ha' k1.out k2.out (fun i hi => Nat.lt_of_lt_of_le (s1.held i hi) hx.length)
      (fun i hl => k1.live (fun i h => inputs_lt_length i h) (fun _ hj => .inl (.root hj)) hl) (stopped_emits cw.wf cw.nn cw.gs hyl hok hs)
      (stopped_emits cv.wf cv.nn cv.gs hyv (hok.agree haP) hsv), hsub⟩
  | @crash w1 w' R1 G1 D1 a d hr1 ha hok hs ih =>
    obtain ⟨v1, hv1, s1, hsub⟩ := ih
    have cw := s1.core hb
    have cv := s1.reach.core hb
    have hal := s1.held a ha
    have haP := s1.agree.mono s1.sub
    have hcl := live_wclX cw R1
    have hreach := hcl.toCl.reachAll cw.wf hal (.inl (.root ha))
    obtain ⟨v', hsv, ha', hd⟩ := agree_interrupted haP cw.wf hs hal hok.1 hreach
    have hav : a < v1.g.length := by rw [s1.agree.graph]; exact hal
    have hokv : ArgsOK b v1 (.materialize a) := hok.agree haP
    have e1 := interrupted_same hs
    have e2 := interrupted_same hsv
    have hrun : RunsXOn b v1 D1 v' (spoiledOn b v1 D1 d) := RunsXOn.crash .refl hav hokv hsv
    rw [agree_spoiled haP hd] at hrun
    refine ⟨v', hv1.trans hrun, s1.next hb (RunsXOn.trans s1.reach hrun) (by rw [e1.1]; exact .refl _) ha' (fun i hi => ?_) (fun i hi => ?_) (fun i hi => by rw [e1.1]; exact s1.held i hi) (fun i hl => .inl ?_)
      (interrupted_emits hs) (interrupted_emits hsv), hsub⟩
    · have := interrupted_foot (i := i) cw.wf hs hal hok.1 (fun hr => hi (hreach i hr))
      exact ⟨this.1, this.2, by rw [e1.2]⟩
    · have := interrupted_foot (i := i) cv.wf hsv hav hokv.1 (fun hr => hi (hreach i (by rw [s1.agree.graph] at hr; exact hr)))
      exact ⟨this.1, this.2, by rw [e2.2]⟩
    · induction hl with
      | root hm => exact .root hm
      | input _ hx ih => rw [e1.1] at hx; exact .input ih hx
      | grad _ hk ih => rw [e1.2] at hk; exact .grad ih hk
  | drop _ hs ih =>
    obtain ⟨v1, hv1, s1, hsub⟩ := ih
    exact ⟨v1, hv1, ⟨s1.reach, s1.agree, fun i hi => s1.held i (hs hi), fun i hi => ⟨(s1.dead i hi).1, fun hl => (s1.dead i hi).2 (hl.mono hs)⟩, s1.gone, s1.trace⟩, hsub⟩
  | @collect w1 R1 G1 D1 j _ hlt hnl hnG ih =>
    obtain ⟨v1, hv1, s1, hsub⟩ := ih
    have hne : ∀ i, i ∉ j :: G1 → i ≠ j ∧ i ∉ G1 := fun i hi => ⟨fun e => hi (by simp [e]), fun e => hi (by simp [e])⟩
    have ha1 := s1.agree
    refine ⟨v1, hv1, ⟨s1.reach, ⟨by rw [ha1.same]; rfl, fun i hi => ?_, fun i hi => ?_, fun i hi => ?_, ?_⟩, s1.held, fun i hi => ?_, fun i hi => ?_, fun hg => ?_⟩, fun x hx => List.mem_cons_of_mem _ (hsub hx)⟩
    · simp only [World.collect, if_neg (hne i hi).1]; exact ha1.cpu i (hne i hi).2
    · simp only [World.collect, if_neg (hne i hi).1]; exact ha1.dev i (hne i hi).2
    · simp only [World.collect, if_neg (hne i hi).1]; exact ha1.grad i (hne i hi).2
    · simp only [World.collect]; split
      · rw [unfreed_free]; exact ha1.ev
      · exact ha1.ev
    · rcases List.mem_cons.1 hi with rfl | hi
      · exact ⟨hlt, fun hl => hnl hl.of_collect⟩
      · exact ⟨(s1.dead i hi).1, fun hl => (s1.dead i hi).2 hl.of_collect⟩
    · simp only [World.collect]
      split
      · exact ⟨rfl, rfl, rfl⟩
      · rename_i hnj
        exact s1.gone i ((List.mem_cons.1 hi).resolve_left hnj)
    · have ht := s1.trace hg
      have hA : Allocated w1.ev j ↔ (w1.dev j).isSome := by
        rw [ht.allocated hnG, ← ((s1.reach.gpu hg).inv hb hg).data.ev.dev j, ha1.dev j hnG]
      simp only [World.collect]
      split
      · rename_i hs
        exact ht.free (hA.2 hs)
      · rename_i hs
        exact ht.forget fun h => hs (hA.1 h)

end Whale
