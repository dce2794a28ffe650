import Verif.Proofs.CrashTrace
import Verif.Proofs.CrashGpu
import Verif.Proofs.CollectSim
/-
The device trace when `materialize` may be interrupted and arrays are collected.
-/
namespace Whale
open Mat Hist
variable {V : Type}

/-- The arrays a device event is about. -/
def DevEvent.on : DevEvent → List Nat
  | .alloc i _ => [i]
  | .copyIn i => [i]
  | .launch out ins => out :: ins
  | .copyOut i => [i]
  | .free i => [i]

/-- What the device was asked to do from `w` to `w'`: nothing is freed, and everything is about arrays that have device memory afterwards. -/
structure Emits (w w' : World V) : Prop where
  ev : ∃ l, w'.ev = w.ev ++ l ∧ ∀ e ∈ l, (∀ i, e ≠ .free i) ∧ ∀ i ∈ e.on, (w'.dev i).isSome
  mono : ∀ i, (w.dev i).isSome → (w'.dev i).isSome

theorem Emits.none {w w' : World V} (he : w'.ev = w.ev) (hd : w'.dev = w.dev) : Emits w w' := ⟨⟨[], by simp [he], by simp⟩, fun i hi => by rw [hd]; exact hi⟩

theorem Emits.refl (w : World V) : Emits w w := .none rfl rfl

theorem Emits.trans {w w' w'' : World V} (h : Emits w w') (k : Emits w' w'') : Emits w w'' := by
  obtain ⟨l, e, hl⟩ := h.ev
  obtain ⟨m, e', hm⟩ := k.ev
  refine ⟨⟨l ++ m, by rw [e', e, List.append_assoc], fun x hx => ?_⟩, fun i hi => k.mono i (h.mono i hi)⟩
  rcases List.mem_append.1 hx with hx | hx
  · exact ⟨(hl x hx).1, fun i hi => k.mono i ((hl x hx).2 i hi)⟩
  · exact hm x hx

theorem alloc_emits {b : Backend V} {w w' : World V} {i : Nat} (he : alloc b w i = .ok w') : Emits w w' ∧ (w'.dev i).isSome := by
  unfold Mat.alloc at he
  split at he
  · rename_i l hl
    cases he; exact ⟨.refl w, by rw [hl]; rfl⟩
  · split at he
    · cases he
    · cases he
      exact ⟨⟨⟨[_], rfl, by simp [DevEvent.on, upd_same]⟩, fun j hj => (isSome_upd _ _ _ _).2 (.inr hj)⟩, by simp [upd_same]⟩

theorem toDev_emits {b : Backend V} {w w' : World V} {p : Nat × Nat} (he : toDev b w p = .ok w') : Emits w w' ∧ (w'.dev p.1).isSome := by
  unfold toDev at he
  obtain ⟨w2, h2, h3⟩ := except_bind_ok he
  have e3 : htod w2 p.1 p.2 = w' := by cases h3; rfl
  obtain ⟨n, hs⟩ := alloc_emits h2
  unfold htod at e3
  split at e3
  · split at e3
    · subst e3
      exact ⟨n.trans ⟨⟨[_], rfl, by simp [DevEvent.on, upd_same]⟩, fun j hj => (isSome_upd _ _ _ _).2 (.inr hj)⟩, by simp [upd_same]⟩
    · subst e3; exact ⟨n, hs⟩
  · subst e3; exact ⟨n, hs⟩

theorem toDevs_emits {b : Backend V} (ps : List (Nat × Nat)) : ∀ {w w' : World V}, ps.foldlM (toDev b) w = .ok w' → Emits w w' ∧ ∀ p ∈ ps, (w'.dev p.1).isSome := by
  induction ps with
  | nil => intro w w' he; cases he; exact ⟨.refl w, by simp⟩
  | cons p ps ih =>
    intro w w' he
    rw [List.foldlM_cons] at he
    obtain ⟨w2, h2, h3⟩ := except_bind_ok he
    obtain ⟨n, hs⟩ := toDev_emits h2
    obtain ⟨n2, s2⟩ := ih h3
    refine ⟨n.trans n2, fun q hq => ?_⟩
    rcases List.mem_cons.1 hq with rfl | hq
    · exact n2.mono _ hs
    · exact s2 q hq

theorem launch_emits {b : Backend V} {w w1 : World V} {out : Nat} {ins : List Nat} (he : (out :: ins).zipIdx.foldlM (toDev b) w = .ok w1) (l : List V) (n : Nat) :
    Emits w { w1 with dev := upd w1.dev out l, tick := n, ev := w1.ev ++ [.launch out ins] } := by
  obtain ⟨k, hs⟩ := toDevs_emits _ he
  refine k.trans ⟨⟨[_], rfl, fun e hm => ?_⟩, fun j hj => (isSome_upd _ _ _ _).2 (.inr hj)⟩
  rw [List.mem_singleton.1 hm]
  refine ⟨by simp, fun i hi => (isSome_upd _ _ _ _).2 (.inr ?_)⟩
  have hi : i ∈ out :: ins := hi
  rw [← fst_zipIdx (out :: ins) 0] at hi
  obtain ⟨p, hp, rfl⟩ := List.mem_map.1 hi
  exact hs p hp

theorem fills_dev {A : Scalar V} (l : List Nat) : ∀ w : World V, (l.foldl (fillCpu A) w).dev = w.dev ∧ (l.foldl (fillCpu A) w).ev = w.ev := by
  induction l with
  | nil => intro w; exact ⟨rfl, rfl⟩
  | cons x l ih =>
    intro w
    rw [List.foldl_cons]
    have : (fillCpu A w x).dev = w.dev ∧ (fillCpu A w x).ev = w.ev := by
      unfold fillCpu; split <;> exact ⟨rfl, rfl⟩
    exact ⟨(ih _).1.trans this.1, (ih _).2.trans this.2⟩

theorem invoke_emits {b : Backend V} {w w' : World V} {sch : Schedule} {K : Kernel} {out : Nat} {ins : List Nat} (h : invoke b w sch K out ins = .ok w') : Emits w w' := by
  unfold invoke at h
  simp only [bind, Except.bind] at h
  split at h
  · cases h
  split at h
  · cases h
  split at h
  · split at h
    · cases h
    · rename_i w1 hw1
      split at h
      · split at h
        · cases h
          exact launch_emits hw1 _ _
        · cases h
      · cases h
  · split at h
    · split at h
      · cases h
        exact .none (fills_dev (A := b.A) (out :: ins) w).2 (fills_dev (A := b.A) (out :: ins) w).1
      · cases h
    · cases h

theorem invokePart_emits {b : Backend V} {w w' : World V} {sch : Schedule} {K : Kernel} {out : Nat} {ins : List Nat} (h : InvokePart b w sch K out ins w') : Emits w w' := by
  cases h with
  | filling k hg => exact .none (fills_dev _ _).2 (fills_dev _ _).1
  | running hg e1 e2 e3 e4 e5 => subst e1; exact .none (fills_dev (A := b.A) (out :: ins) w).2 (fills_dev (A := b.A) (out :: ins) w).1
  | copying k hg e => exact (toDevs_emits _ e).1
  | allocating k hg e hq ha => exact (toDevs_emits _ e).1.trans (alloc_emits ha).1
  | launched hg e1 e2 e3 e4 e5 => exact launch_emits e1 _ _

theorem runFunc_emits {b : Backend V} {t : Tbl} {n : Nat} {w w' : World V} {p : Nat × Schedule} (h : runFunc b t n w p = .ok w') : Emits w w' := by
  unfold runFunc at h
  split at h
  · cases h
  obtain ⟨outs, h1, h⟩ := except_bind_ok h
  obtain ⟨key, h2, h⟩ := except_bind_ok h
  split at h
  · have k := invoke_emits h
    exact ⟨k.ev, k.mono⟩
  · obtain ⟨⟨K, n⟩, h3, h⟩ := except_bind_ok h
    obtain ⟨w1, h4, h⟩ := except_bind_ok h
    cases h
    have k := (Emits.none (w := w) (w' := { w with tmp := n, cache := w.cache ++ [(key, K)], hits := fun k => if k = key then 0 else w.hits k }) rfl rfl).trans (invoke_emits h4)
    exact k.trans (.none rfl rfl)

theorem runFuncs_emits {b : Backend V} {t : Tbl} {n : Nat} (ps : List (Nat × Schedule)) : ∀ {w w' : World V}, ps.foldlM (runFunc b t n) w = .ok w' → Emits w w' := by
  induction ps with
  | nil => intro w w' h; cases h; exact .refl w
  | cons p ps ih =>
    intro w w' h
    rw [List.foldlM_cons] at h
    obtain ⟨w1, h1, h2⟩ := except_bind_ok h
    exact (runFunc_emits h1).trans (ih h2)

theorem materialize_emits {b : Backend V} {w w' : World V} (n : Nat) : ∀ {a : Nat}, materializeF b n w a = .ok w' → Emits w w' := by
  induction n with
  | zero => intro a h; cases h
  | succ n ih =>
    intro a h
    unfold materializeF at h
    split at h
    · cases h; exact .refl w
    split at h
    · split at h
      · exact ih h
      · cases h
    · obtain ⟨⟨funcs, t⟩, _, h⟩ := except_bind_ok h
      obtain ⟨scheds, _, h⟩ := except_bind_ok h
      have k := runFuncs_emits _ h
      exact ⟨k.ev, k.mono⟩

theorem interrupted_emits {b : Backend V} {w w' : World V} {a : Nat} {d : Option Nat} (h : Interrupted b w a d w') : Emits w w' := by
  induction h with
  | early => exact .refl w
  | view _ _ _ _ ih => exact ih
  | kernel _ _ _ _ _ hpre hp =>
    have k := runFuncs_emits _ hpre
    refine Emits.trans ⟨k.ev, k.mono⟩ ?_
    cases hp with
    | before n => exact .none rfl rfl
    | hit _ _ _ _ hi => have k := invokePart_emits hi; exact ⟨k.ev, k.mono⟩
    | miss _ _ _ _ _ hi => have k := invokePart_emits hi; exact ⟨k.ev, k.mono⟩

theorem tolist_emits {b : Backend V} {w : World V} {a : Nat} {p : Nested V × World V} (h : tolist b w a = .ok p) : Emits w p.2 := by
  unfold tolist at h
  obtain ⟨w1, h1, h2⟩ := except_bind_ok h
  have e : Emits w w1 := by
    unfold ensureCpu at h1
    split at h1
    · cases h1; exact .refl w
    · split at h1
      case isFalse => cases h1
      split at h1
      · rename_i l hl
        cases h1
        exact ⟨⟨[_], rfl, by simp [DevEvent.on, hl]⟩, fun _ h => h⟩
      · cases h1
  split at h2
  · obtain ⟨q, _, h3⟩ := except_bind_ok h2
    cases h3; exact e
  · cases h2

/-- A completed call. -/
theorem step_emits {b : Backend V} {w w' : World V} {c : Call V} {o : Out V} (hw : WF w.g) (hn : NN w.g) (hgs : GradShapes w) (hb : ∀ y, c = .backward y → BackwardOK w.g y) (hs : step b w c = .ok (o, w')) :
    Emits w w' := by
  unfold step at hs
  split at hs
  case isFalse => cases hs
  rename_i hin
  by_cases hq : quiet c = true
  · exact .none (exec1_ev hq hs) (exec1_keeps hq hs).2
  · rcases notQuiet hq with ⟨a, rfl⟩ | ⟨a, rfl⟩ | ⟨a, rfl⟩
    · simp only [exec1] at hs
      obtain ⟨w1, h1, h2⟩ := except_bind_ok hs
      cases h2; exact materialize_emits _ h1
    · simp only [exec1] at hs
      obtain ⟨p, h1, h2⟩ := except_bind_ok hs
      cases h2; exact tolist_emits h1
    · obtain ⟨w2, order, e, r⟩ := backward_ok b.A hw hn hgs (hin a (by simp [Call.arrays])) (hb a rfl)
      simp only [exec1, e] at hs
      cases hs
      have hrest := r.step.rest
      exact .none (by rw [hrest]) (by rw [hrest])

theorem stopped_emits {A : Scalar V} {w w' : World V} {y : Nat} (hw : WF w.g) (hn : NN w.g) (hgs : GradShapes w) (hy : y < w.g.length) (hb : BackwardOK w.g y) (hs : Bwd.Stopped A w y w') : Emits w w' := by
  have hrest := ((hs.bstep A hw hn hgs hy hb).1).rest
  exact .none (by rw [hrest]) (by rw [hrest])

/-! #### with collections -/

/-- The trace `ev` of a program in which the arrays `G` have been collected, and the trace `ev'` of the same program without collection. -/
structure TrX (G : List Nat) (ev ev' : List DevEvent) : Prop where
  ok : DevTraceOK ev
  same : ∀ i, i ∉ G → ∀ e, (∀ j, e ≠ .free j) → (Since ev i e ↔ Since ev' i e)
  gone : ∀ i ∈ G, ¬ Allocated ev i

theorem TrX.init : TrX [] [] [] := ⟨.nil, fun _ _ _ _ => .rfl, by simp⟩

theorem DevTraceOK.of_snoc {ev : List DevEvent} {e : DevEvent} (h : DevTraceOK (ev ++ [e])) : DevTraceOK ev ∧ EventOK ev e := by
  generalize hx : ev ++ [e] = x at h
  cases h with
  | nil => simp at hx
  | snoc h1 h2 =>
    obtain ⟨rfl, h3⟩ := List.append_inj' hx rfl
    cases h3; exact ⟨h1, h2⟩

theorem TrX.allocated {G : List Nat} {ev ev' : List DevEvent} (h : TrX G ev ev') {i : Nat} (hi : i ∉ G) : Allocated ev i ↔ Allocated ev' i := by
  unfold Allocated
  constructor
  · rintro ⟨n, hn⟩; exact ⟨n, (h.same i hi _ (by simp)).1 hn⟩
  · rintro ⟨n, hn⟩; exact ⟨n, (h.same i hi _ (by simp)).2 hn⟩

theorem TrX.loaded {G : List Nat} {ev ev' : List DevEvent} (h : TrX G ev ev') {i : Nat} (hi : i ∉ G) : Loaded ev' i → Loaded ev i := by
  rintro (h1 | ⟨ins, h1⟩)
  · exact .inl ((h.same i hi _ (by simp)).2 h1)
  · exact .inr ⟨ins, (h.same i hi _ (by simp)).2 h1⟩

theorem TrX.snoc {G : List Nat} {ev ev' : List DevEvent} (h : TrX G ev ev') {e : DevEvent} (he : EventOK ev' e) (hf : ∀ i, e ≠ .free i) (hG : ∀ i ∈ e.on, i ∉ G) : TrX G (ev ++ [e]) (ev' ++ [e]) := by
  refine ⟨.snoc h.ok ?_, fun i hi x hx => ?_, fun i hi => ?_⟩
  · cases e with
    | alloc i n => exact ⟨fun ha => he.1 ((h.allocated (hG i (by simp [DevEvent.on]))).1 ha), he.2⟩
    | copyIn i => exact (h.allocated (hG i (by simp [DevEvent.on]))).2 he
    | launch out ins =>
      obtain ⟨h1, h2, h3⟩ := he
      refine ⟨(h.allocated (hG out (by simp [DevEvent.on]))).2 h1, h2, fun i hi => ?_⟩
      have hn := hG i (by simp [DevEvent.on, hi])
      exact ⟨(h.allocated hn).2 (h3 i hi).1, h.loaded hn (h3 i hi).2⟩
    | copyOut i =>
      obtain ⟨h1, ins, h2⟩ := he
      have hn := hG i (by simp [DevEvent.on])
      exact ⟨(h.allocated hn).2 h1, ins, (h.same i hn _ (by simp)).2 h2⟩
    | free i => exact absurd rfl (hf i)
  · rw [since_snoc, since_snoc, h.same i hi x hx]
  · rw [allocated_snoc (hf i)]
    rintro (ha | ⟨n, rfl⟩)
    · exact h.gone i hi ha
    · exact hG i (by simp [DevEvent.on]) hi

theorem TrX.append {G : List Nat} (l : List DevEvent) : ∀ {ev ev' : List DevEvent}, TrX G ev ev' → DevTraceOK (ev' ++ l) → (∀ e ∈ l, (∀ i, e ≠ .free i) ∧ ∀ i ∈ e.on, i ∉ G) → TrX G (ev ++ l) (ev' ++ l) := by
  induction l using List.reverseRecOn with
  | nil => intro ev ev' h _ _; simpa using h
  | append_singleton l e ih =>
    intro ev ev' h hok hl
    rw [← List.append_assoc] at hok
    obtain ⟨h1, h2⟩ := hok.of_snoc
    have k := ih h h1 (fun x hx => hl x (by simp [hx]))
    rw [← List.append_assoc, ← List.append_assoc]
    exact k.snoc h2 (hl e (by simp)).1 (hl e (by simp)).2

theorem unfreed_keep {l : List DevEvent} (h : ∀ e ∈ l, ∀ i, e ≠ .free i) : unfreed l = l := by
  unfold unfreed
  rw [List.filter_eq_self]
  intro e he
  cases e <;> first | rfl | exact absurd rfl (h _ he _)

/-- Both programs make the same step. -/
theorem TrX.step {G : List Nat} {w w' v v' : World V} (h : TrX G w.ev v.ev) (hu : unfreed v.ev = unfreed w.ev) (hu' : unfreed v'.ev = unfreed w'.ev) (ew : Emits w w') (ev : Emits v v') (hok : DevTraceOK v'.ev)
    (hG : ∀ i ∈ G, w'.dev i = none) : TrX G w'.ev v'.ev := by
  obtain ⟨l, e1, h1⟩ := ew.ev
  obtain ⟨m, e2, h2⟩ := ev.ev
  have hl : unfreed l = l := unfreed_keep fun e he => (h1 e he).1
  have hm : unfreed m = m := unfreed_keep fun e he => (h2 e he).1
  have : m = l := by
    rw [e1, e2] at hu'
    have a1 : unfreed (v.ev ++ m) = unfreed v.ev ++ unfreed m := List.filter_append ..
    have a2 : unfreed (w.ev ++ l) = unfreed w.ev ++ unfreed l := List.filter_append ..
    rw [a1, a2, hl, hm, hu] at hu'
    exact List.append_cancel_left hu'
  subst this
  rw [e2] at hok
  rw [e1, e2]
  exact h.append _ hok fun e he => ⟨(h1 e he).1, fun i hi hg => by
    have := (h1 e he).2 i hi
    rw [hG i hg] at this; cases this⟩

/-- An array is collected. -/
theorem TrX.free {G : List Nat} {ev ev' : List DevEvent} (h : TrX G ev ev') {j : Nat} (hj : Allocated ev j) : TrX (j :: G) (ev ++ [.free j]) ev' := by
  refine ⟨.snoc h.ok hj, fun i hi e he => ?_, fun i hi => ?_⟩
  · have hij : i ≠ j := fun e => hi (by simp [e])
    rw [since_snoc, h.same i (fun hm => hi (by simp [hm])) e he]
    exact ⟨fun k => k.elim And.left fun k => absurd k.symm (he j), fun k => .inl ⟨k, by simp; exact fun e => hij e.symm⟩⟩
  · by_cases e : i = j
    · subst e
      rintro ⟨n, hn⟩
      rcases since_snoc.1 hn with h | h
      · exact h.2 rfl
      · cases h
    · rw [allocated_snoc (by simp; exact fun h => e h.symm)]
      rintro (ha | ⟨n, hn⟩)
      · exact h.gone i ((List.mem_cons.1 hi).resolve_left e) ha
      · cases hn

theorem TrX.forget {G : List Nat} {ev ev' : List DevEvent} (h : TrX G ev ev') {j : Nat} (hj : ¬ Allocated ev j) : TrX (j :: G) ev ev' :=
  ⟨h.ok, fun i hi => h.same i fun hm => hi (by simp [hm]), fun i hi => by
    rcases List.mem_cons.1 hi with rfl | hi
    · exact hj
    · exact h.gone i hi⟩

end Whale
