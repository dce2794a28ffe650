import Verif.Spec.CrashGpu
import Verif.Proofs.Device
import Verif.Proofs.Materialize
/-
The device trace when `materialize` may be interrupted.
-/
namespace Whale
open Mat Hist
variable {V : Type}

/-- The device trace and the device memory `d`, when the data of the arrays `D` are incomplete: other arrays without a host copy were computed. -/
structure EvX (D : List Nat) (w : World V) (d : Nat → Option (List V)) (ev : List DevEvent) : Prop where
  ok : DevTraceOK ev
  dev : ∀ i, (d i).isSome ↔ Allocated ev i
  src : ∀ i, (d i).isSome → i ∈ D ∨ (cpuBuf w i).isSome ∨ ∃ ins, Since ev i (.launch i ins)

/-- What parameters do to it. -/
structure EvNext (D : List Nat) (w : World V) (ev : List DevEvent) (w1 : World V) : Prop where
  inv : EvX D w w1.dev w1.ev
  g : w1.g = w.g
  cpu : w1.cpu = w.cpu
  since : ∀ i e, Since ev i e → Since w1.ev i e

theorem EvX.mono {D D' : List Nat} {w : World V} {d : Nat → Option (List V)} {ev : List DevEvent} (h : EvX D w d ev) (hs : ∀ i, i ∈ D → i ∈ D') : EvX D' w d ev :=
  ⟨h.ok, h.dev, fun i hi => (h.src i hi).imp_left (hs i)⟩

theorem EvX.world {D : List Nat} {w w' : World V} {d : Nat → Option (List V)} {ev : List DevEvent} (h : EvX D w d ev) (hs : ∀ i, (d i).isSome → (cpuBuf w i).isSome → (cpuBuf w' i).isSome) :
    EvX D w' d ev := ⟨h.ok, h.dev, fun i hi => (h.src i hi).imp_right (Or.imp_left (hs i hi))⟩

theorem EvX.init : EvX [] (Mat.init : World V) (Mat.init : World V).dev (Mat.init : World V).ev :=
  ⟨.nil, fun i => ⟨fun h => (by cases h), fun ⟨_, pre, post, h, _⟩ => by
    have : ([] : List DevEvent) = pre ++ _ :: post := h
    simp at this⟩, fun i h => (by cases h)⟩

theorem EvX.alloc {D : List Nat} {w : World V} {d : Nat → Option (List V)} {ev : List DevEvent} (h : EvX D w d ev) {i : Nat} (hi : d i = none) {n : Int} (hn : 0 < n) (l : List V)
    (hs : i ∈ D ∨ (cpuBuf w i).isSome) : EvX D w (upd d i l) (ev ++ [.alloc i n]) := by
  refine ⟨.snoc h.ok ⟨fun ha => ?_, hn⟩, fun j => ?_, fun j hj => ?_⟩
  · have := (h.dev i).2 ha; rw [hi] at this; cases this
  · rw [isSome_upd, allocated_snoc, h.dev]
    constructor
    · rintro (rfl | h)
      · exact .inr ⟨n, rfl⟩
      · exact .inl h
    · rintro (h | ⟨m, h⟩)
      · exact .inr h
      · cases h; exact .inl rfl
  · by_cases e : j = i
    · subst e; exact hs.imp_right .inl
    · rw [isSome_upd] at hj
      exact (h.src j (hj.resolve_left e)).imp_right (Or.imp_right fun ⟨ins, p⟩ => ⟨ins, p.snoc⟩)

/-- An event that changes the content of memory that is there, or reads it. -/
theorem EvX.touch {D : List Nat} {w : World V} {d : Nat → Option (List V)} {ev : List DevEvent} (h : EvX D w d ev) {e : DevEvent} (he : EventOK ev e) (hf : ∀ i, e ≠ .free i) (ha : ∀ i n, e ≠ .alloc i n) :
    EvX D w d (ev ++ [e]) :=
  ⟨.snoc h.ok he, fun j => by
    rw [allocated_snoc (hf j), h.dev]
    exact ⟨.inl, fun h => h.elim id fun ⟨n, h⟩ => absurd h (ha j n)⟩,
   fun j hj => (h.src j hj).imp_right (Or.imp_right fun ⟨ins, p⟩ => ⟨ins, p.snoc (hf j)⟩)⟩

theorem EvX.upd {D : List Nat} {w : World V} {d : Nat → Option (List V)} {ev : List DevEvent} (h : EvX D w d ev) {i : Nat} (hi : (d i).isSome) (l : List V) : EvX D w (upd d i l) ev := by
  have e : ∀ j, (Mat.upd d i l j).isSome ↔ (d j).isSome := fun j => by
    rw [isSome_upd]
    exact ⟨fun h => h.elim (fun e => e ▸ hi) id, .inr⟩
  exact ⟨h.ok, fun j => (e j).trans (h.dev j), fun j hj => h.src j ((e j).1 hj)⟩

theorem alloc_X {b : Backend V} {D : List Nat} {w w0 w1 : World V} (hw : w0.g = w.g ∧ w0.cpu = w.cpu) (h : EvX D w w0.dev w0.ev) {i : Nat} (hp : (cpuBuf w i).isSome ∨ (w0.dev i).isSome ∨ i ∈ D)
    (he : alloc b w0 i = .ok w1) : EvNext D w w0.ev w1 ∧ (w1.dev i).isSome := by
  unfold Mat.alloc at he
  split at he
  · rename_i l hl
    cases he
    exact ⟨⟨h, hw.1, hw.2, fun _ _ h => h⟩, by rw [hl]; rfl⟩
  · rename_i hn
    split at he
    · cases he
    · rename_i hlen
      cases he
      refine ⟨⟨h.alloc hn (by omega) _ ?_, hw.1, hw.2, fun _ _ h => h.snoc⟩, by simp [upd_same]⟩
      rcases hp with hp | hp | hp
      · exact .inr hp
      · rw [hn] at hp; cases hp
      · exact .inl hp

theorem toDev_X {b : Backend V} {D : List Nat} {w w0 w1 : World V} (hw : w0.g = w.g ∧ w0.cpu = w.cpu) (h : EvX D w w0.dev w0.ev) {p : Nat × Nat} (hp : (cpuBuf w p.1).isSome ∨ (w0.dev p.1).isSome ∨ p.1 ∈ D)
    (he : toDev b w0 p = .ok w1) : EvNext D w w0.ev w1 ∧ (w1.dev p.1).isSome ∧ (p.2 ≠ 0 → (cpuBuf w p.1).isSome → Since w1.ev p.1 (.copyIn p.1)) := by
  unfold toDev at he
  obtain ⟨w2, h2, h3⟩ := except_bind_ok he
  obtain ⟨n, hs⟩ := alloc_X hw h hp h2
  have e3 : htod w2 p.1 p.2 = w1 := by cases h3; rfl
  have hcb : cpuBuf w2 p.1 = cpuBuf w p.1 := by unfold cpuBuf; rw [n.g, n.cpu]
  unfold htod at e3
  rw [hcb] at e3
  split at e3
  · rename_i l hl
    split at e3
    · rename_i hk
      subst e3
      exact ⟨⟨(n.inv.touch (e := .copyIn p.1) ((n.inv.dev _).1 hs) (by simp) (by simp)).upd hs _, n.g, n.cpu, fun i e h => (n.since i e h).snoc⟩, by simp [upd_same], fun _ _ => .last⟩
    · rename_i hk
      subst e3
      exact ⟨n, hs, fun h => absurd h hk⟩
  · rename_i hl
    subst e3
    exact ⟨n, hs, fun _ h => by rw [hl] at h; cases h⟩

theorem isSome_alloc {b : Backend V} {w0 w1 : World V} {i : Nat} (he : alloc b w0 i = .ok w1) (j : Nat) (hj : (w0.dev j).isSome) : (w1.dev j).isSome := by
  unfold Mat.alloc at he
  split at he
  · cases he; exact hj
  · split at he
    · cases he
    · cases he; exact (isSome_upd _ _ _ _).2 (.inr hj)

theorem isSome_toDev {b : Backend V} {w0 w1 : World V} {p : Nat × Nat} (he : toDev b w0 p = .ok w1) (j : Nat) (hj : (w0.dev j).isSome) : (w1.dev j).isSome := by
  unfold toDev at he
  obtain ⟨w2, h2, h3⟩ := except_bind_ok he
  have e3 : htod w2 p.1 p.2 = w1 := by cases h3; rfl
  have := isSome_alloc h2 j hj
  unfold htod at e3
  split at e3
  · split at e3
    · subst e3; exact (isSome_upd _ _ _ _).2 (.inr this)
    · subst e3; exact this
  · subst e3; exact this

theorem toDevs_X {b : Backend V} {D : List Nat} {w : World V} (ps : List (Nat × Nat)) : ∀ {w0 w1 : World V}, w0.g = w.g ∧ w0.cpu = w.cpu → EvX D w w0.dev w0.ev →
    (∀ p ∈ ps, (cpuBuf w p.1).isSome ∨ (w0.dev p.1).isSome ∨ p.1 ∈ D) → ps.foldlM (toDev b) w0 = .ok w1 →
    EvNext D w w0.ev w1 ∧ (∀ j, (w0.dev j).isSome → (w1.dev j).isSome) ∧ (∀ p ∈ ps, (w1.dev p.1).isSome) ∧
      ∀ p ∈ ps, p.2 ≠ 0 → (cpuBuf w p.1).isSome → Since w1.ev p.1 (.copyIn p.1) := by
  induction ps with
  | nil => intro w0 w1 hw h _ he; cases he; exact ⟨⟨h, hw.1, hw.2, fun _ _ h => h⟩, fun _ h => h, by simp, by simp⟩
  | cons p ps ih =>
    intro w0 w1 hw h hp he
    rw [List.foldlM_cons] at he
    obtain ⟨w2, h2, h3⟩ := except_bind_ok he
    obtain ⟨n, hs, hc⟩ := toDev_X hw h (hp p (by simp)) h2
    have hm := isSome_toDev h2
    obtain ⟨n2, m2, s2, c2⟩ := ih ⟨n.g, n.cpu⟩ n.inv (fun q hq => (hp q (by simp [hq])).imp_right (Or.imp_left (hm _))) h3
    refine ⟨⟨n2.inv, n2.g, n2.cpu, fun i e h => n2.since i e (n.since i e h)⟩, fun j hj => m2 j (hm j hj), fun q hq => ?_, fun q hq hk hcb => ?_⟩
    · rcases List.mem_cons.1 hq with rfl | hq
      · exact m2 _ hs
      · exact s2 q hq
    · rcases List.mem_cons.1 hq with rfl | hq
      · exact n2.since _ _ (hc hk hcb)
      · exact c2 q hq hk hcb

/-- The launch. -/
theorem EvX.launch {D : List Nat} {w : World V} {d : Nat → Option (List V)} {ev : List DevEvent} (h : EvX D w d ev) {out : Nat} {ins : List Nat} (ho : (d out).isSome) (hni : out ∉ ins)
    (hin : ∀ i ∈ ins, (d i).isSome ∧ Loaded ev i) (l : List V) : EvX (D.filter (· ≠ out)) w (Mat.upd d out l) (ev ++ [.launch out ins]) := by
  have k := (h.touch (e := .launch out ins) ⟨(h.dev _).1 ho, hni, fun i hi => ⟨(h.dev i).1 (hin i hi).1, (hin i hi).2⟩⟩ (by simp) (by simp)).upd ho l
  refine ⟨k.ok, k.dev, fun i hi => ?_⟩
  by_cases e : i = out
  · subst e; exact .inr (.inr ⟨ins, .last⟩)
  · exact (k.src i hi).imp_left fun hm => List.mem_filter.2 ⟨hm, by simpa using e⟩

end Whale
