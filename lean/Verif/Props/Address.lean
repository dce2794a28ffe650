import Verif.Proofs.Address
import Verif.Proofs.DemoG
import Verif.Props.Session
/-
C69: device pointers, garbage collection and changing backends.
-/
namespace Whale.Props
open Mat Hist
variable {V : Type}

/-- C69, the part that holds: if CUDA contexts are only started when no array has a device pointer, then in every history with garbage collection and changes of the backend, whatever blocks the
driver gives out, on the current backend every array the program refers to is computed and read back as its value. -/
theorem C69_computes_partial {al : Allocator V} (hal : FreshBlocks al) {b : Backend V} {s : PWorld V} {R G : List Nat} (hr : ReachableP al b s R G) {a : Nat} (ha : a ∈ R)
    (hno : NoOffsetReshape s.w.g a) : ComputesP b al s R G a (value b s.w a) := by
  obtain ⟨w, hb, h, hi⟩ := hr.inv hal
  have hc := computesG_value hb hi ha (by rw [h.same] at hno; exact hno)
  have hv : value b s.w a = value b w a := by rw [h.same]; rfl
  intro s1 R1 G1 hr1 ha1 hok
  obtain ⟨w1, g1, h1⟩ := hr1.sim hal h
  obtain ⟨w2, e2, hrest⟩ := hc w1 R1 G1 g1 ha1 (by rw [h1.same] at hok; exact argsOK_bare.1 hok)
  obtain ⟨s2, e2', h2⟩ := h1.step_ok hal e2
  refine ⟨s2, e2', fun s3 R3 G3 hr3 ha3 => ?_⟩
  obtain ⟨w3, g3, h3⟩ := hr3.sim hal h2
  obtain ⟨w4, e4⟩ := hrest w3 R3 G3 g3 ha3
  obtain ⟨s4, e4', _⟩ := h3.step_ok hal e4
  exact ⟨s4, by rw [e4', hv]⟩

/-- C69: no array the program still refers to is changed by anything (shape, dtype, value). -/
theorem C69_keeps {al : Allocator V} (hal : FreshBlocks al) {b b' : Backend V} {s s' : PWorld V} {R G R' G' : List Nat} (hr : ReachableP al b s R G) (hrun : RunsPS al b s R G b' s' R' G') {a : Nat}
    (ha : a < s.w.g.length) : a < s'.w.g.length ∧ s'.w.g.shape a = s.w.g.shape a ∧ s'.w.g.dtype a = s.w.g.dtype a ∧ value b' s'.w a = value b s.w a := by
  obtain ⟨w, hb, h, hi⟩ := hr.inv hal
  obtain ⟨w', h', hi', hl⟩ := hrun.later hal hb h hi
  rw [h.same] at ha ⊢
  rw [h'.same]
  refine ⟨Nat.lt_of_lt_of_le ha hl.ext.length, hl.ext.shape ha, by show w'.g.dtype a = w.g.dtype a; unfold Graph.dtype; rw [hl.ext.nd ha], ?_⟩
  show den b'.A w'.g a = den b.A w.g a
  rw [hl.A]
  exact den_ext b.A hl.ext hi'.inv.winv.wf ha

/-- C69: an array that has been read once can be read ever after, with the same result, on every backend the program changes to, as long as the program refers to it. -/
theorem C69_stable {al : Allocator V} (hal : FreshBlocks al) {b b' : Backend V} {s s1 s' : PWorld V} {R G R' G' : List Nat} (hr : ReachableP al b s R G) {a : Nat} {l : Nested V} (haR : a ∈ R)
    (h : Ptr.step b al s (.tolist a) = .ok (.list l, s1)) (hrun : RunsPS al b s1 R G b' s' R' G') (haR' : a ∈ R') : ∃ s2, Ptr.step b' al s' (.tolist a) = .ok (.list l, s2) := by
  obtain ⟨w, hb, h0, hi⟩ := hr.inv hal
  have ha := hi.held a haR
  have hsim := step_simP hal h0 (.tolist a)
  rw [h] at hsim
  cases hst : step b w (.tolist a) with
  | error e => rw [hst] at hsim; exact hsim.elim
  | ok q =>
  obtain ⟨o, w1⟩ := q
  rw [hst] at hsim
  obtain ⟨rfl, h1⟩ : .list l = o ∧ PtrRel b s1 w1 := hsim
  obtain ⟨i1, l1, _⟩ := (RunsG.call (R := R) (G := G) .refl (by simpa [Call.arrays] using haR) (show ArgsOK b w (.tolist a) from trivial) hst).inv hb hi
  obtain ⟨w', h', i', l'⟩ := hrun.later hal hb h1 i1
  rw [step_tolist ha] at hst
  obtain ⟨p, hp, e⟩ : ∃ p, tolist b w a = .ok p ∧ (p.1 = l ∧ p.2 = w1) := by
    cases ht : tolist b w a with
    | error e => rw [ht] at hst; cases hst
    | ok p => rw [ht] at hst; exact ⟨p, rfl, by cases hst; exact ⟨rfl, rfl⟩⟩
  obtain ⟨rfl, rfl⟩ := e
  obtain ⟨hg, hav1⟩ := tolist_cpuBuf hp
  have hbl := Nat.lt_of_le_of_lt (base_le hi.inv.winv.wf ha) ha
  have hbl1 : base w.g a < p.2.g.length := by rw [hg]; exact hbl
  have ha1 : a < p.2.g.length := by rw [hg]; exact ha
  have ha2 := i'.held a haR'
  have hbe : base w'.g a = base w.g a := by rw [base_ext l'.ext i1.inv.winv.wf ha1, hg]
  have hnG : base w.g a ∉ G' := fun hG => by
    rw [← hbe] at hG
    refine (i'.dead _ hG).2 ?_
    have : ∀ j, Reach w'.g a j → Live w' R' j := by
      intro j hj
      induction hj with
      | refl => exact .root haR'
      | step _ hx ih => exact .input ih hx
    exact this _ (base_reach i'.inv.winv.wf ha2)
  obtain ⟨l1', w3, t1, d1⟩ := tolist_data hi.inv.winv ha (tolist_avail hp)
  rw [hp] at t1; cases t1
  obtain ⟨l2, w4, t2, d2⟩ := tolist_data i'.inv.winv ha2 (by rw [hbe]; exact .inl (cpuBuf_mono (l'.ext.nd hbl1) (l'.cpuMono _ hnG) hav1))
  rw [hbe, l'.A, den_ext b.A l'.ext i'.inv.winv.wf hbl1, l'.ext.shape ha1, l'.ext.strides ha1, l'.ext.offset ha1, hg, d1] at d2
  cases d2
  have es : step b' w' (.tolist a) = .ok (.list l1', w4) := by rw [step_tolist ha2, t2]; rfl
  obtain ⟨s2, e2, _⟩ := h'.step_ok hal es
  exact ⟨s2, e2⟩

/-- C69, the memory of the device: on CUDA, in every state of such a history, every device pointer points to an allocated block, no two arrays share one, no block is allocated twice, and every
allocated block is that of an array that has not been collected (no leak). -/
theorem C69_memory {al : Allocator V} (hal : FreshBlocks al) {b : Backend V} (hgpu : b.isGpu = true) {s : PWorld V} {R G : List Nat} (hr : ReachableP al b s R G) :
    (∀ i p, s.ptr i = some p → p ∈ s.heap.map (·.1)) ∧ (∀ i j p, s.ptr i = some p → s.ptr j = some p → i = j) ∧ (s.heap.map (·.1)).Nodup ∧
      ∀ p ∈ s.heap.map (·.1), ∃ i, i ∉ G ∧ s.ptr i = some p := by
  obtain ⟨w, hb, h, hi⟩ := hr.inv hal
  have hm := h.mem hgpu
  refine ⟨fun i p hp => lookup_mem (by rw [hm.load i p hp, ← h.isSome, hp]; rfl), hm.inj, hm.nodup, fun p hp => ?_⟩
  obtain ⟨i, hi'⟩ := hm.own p hp
  refine ⟨i, fun hG => ?_, hi'⟩
  have := h.isSome i
  rw [hi', (hi.gone i hG).2.1] at this
  cases this

/-! ### example and counterexamples -/

namespace AddrDemo

/-- The lowest free address. -/
def low : Allocator V := fun h _ => ((List.range (h.length + 1)).find? fun p => decide (p ∉ h.map (·.1))).getD 0

theorem low_fresh : FreshBlocks (low : Allocator V) := by
  intro h n
  unfold low
  cases hf : (List.range (h.length + 1)).find? fun p => decide (p ∉ h.map (·.1)) with
  | some p => have := List.find?_some hf; simpa using this
  | none =>
    exfalso
    rw [List.find?_eq_none] at hf
    have hsub : List.range (h.length + 1) ⊆ h.map (·.1) := fun p hp => by simpa using hf p hp
    have := (List.subperm_of_subset List.nodup_range hsub).length_le
    simp only [List.length_range, List.length_map] at this
    omega

/-- CUDA or the Python backend. -/
noncomputable def bk (gpu : Bool) : Backend Int := if gpu then Demo.cuda else Demo.py

theorem bk_faithful (g : Bool) : Faithful (bk g) := by cases g; exact Demo.py_faithful; exact Demo.cuda_faithful

theorem bk_A (g : Bool) : (bk g).A = Demo.Z := by cases g <;> rfl

/-- What programs and their interpreter do. -/
inductive Do
  | call (c : Call Int)
  | drop (R : List Nat)
  | collect (i : Nat)
  | reset (gpu : Bool)

/-- Current backend, state, references held, arrays collected. -/
abbrev State := Bool × PWorld Int × List Nat × List Nat

/-- Running a program without checking the conditions of `RunsPS`. -/
noncomputable def act (st : State) : Do → Option State
  | .call c => match Ptr.step (bk st.1) low st.2.1 c with
    | .ok (o, s') => some (st.1, s', held st.2.2.1 o, st.2.2.2)
    | .error _ => none
  | .drop R => some (st.1, st.2.1, R, st.2.2.2)
  | .collect i => some (st.1, Ptr.collect (bk st.1) st.2.1 i, st.2.2.1, i :: st.2.2.2)
  | .reset g => some (g, Ptr.switch st.2.1, st.2.2.1, st.2.2.2)

/-- The conditions of `RunsPS`. -/
noncomputable def allowed (st : State) : Do → Bool
  | .call c => c.arrays.all (· ∈ st.2.2.1) && argsOKb (bk st.1) st.2.1.w c
  | .drop R => R.all (· ∈ st.2.2.1)
  | .collect i => decide (i < st.2.1.w.g.length) && Demo.closedB st.2.1.w (Demo.liveSet st.2.1.w st.2.2.1) && st.2.2.1.all (· ∈ Demo.liveSet st.2.1.w st.2.2.1) &&
      !decide (i ∈ Demo.liveSet st.2.1.w st.2.2.1) && !decide (i ∈ st.2.2.2)
  | .reset g => !g || (st.1 && st.2.1.heap.isEmpty)

noncomputable def acts (st : State) : List Do → Option State
  | [] => some st
  | d :: ds => (act st d).bind fun st' => acts st' ds

noncomputable def actsB (st : State) : List Do → Option State
  | [] => some st
  | d :: ds => if allowed st d then (act st d).bind fun st' => actsB st' ds else none

noncomputable def start (g : Bool) : State := (g, Ptr.init, [], [])

theorem act_sound {g0 : Bool} {st st' : State} (h : RunsPS low (bk g0) Ptr.init [] [] (bk st.1) st.2.1 st.2.2.1 st.2.2.2) {d : Do} (hd : allowed st d = true) (ha : act st d = some st') :
    RunsPS low (bk g0) Ptr.init [] [] (bk st'.1) st'.2.1 st'.2.2.1 st'.2.2.2 := by
  have hr : ReachableP low (bk st.1) st.2.1 st.2.2.1 st.2.2.2 := ⟨_, bk_faithful g0, h⟩
  obtain ⟨w, hb, hp, hi⟩ := hr.inv low_fresh
  have hsame := hp.same
  cases d with
  | call c =>
    simp only [act] at ha
    simp only [allowed, Bool.and_eq_true, List.all_eq_true, decide_eq_true_eq] at hd
    split at ha
    · rename_i o w' hs
      cases ha
      refine .run h (.call .refl hd.1 (argsOKb_sound (fun a ha => ?_) ?_ hd.2) hs)
      · rw [hsame]; exact hi.held a (hd.1 a ha)
      · rw [hsame]; exact hi.inv.winv.wf
    · cases ha
  | drop R =>
    simp only [act, Option.some.injEq] at ha
    simp only [allowed, List.all_eq_true, decide_eq_true_eq] at hd
    cases ha; exact .run h (.drop .refl hd)
  | collect i =>
    simp only [act, Option.some.injEq] at ha
    simp only [allowed, Bool.and_eq_true, List.all_eq_true, decide_eq_true_eq, Bool.not_eq_true', decide_eq_false_iff_not] at hd
    obtain ⟨⟨⟨⟨h1, h2⟩, h3⟩, h4⟩, h5⟩ := hd
    cases ha
    exact .run h (.collect .refl h1 (fun hl => h4 (Demo.closedB_sound h2 h3 hl)) h5)
  | reset g =>
    simp only [act, Option.some.injEq] at ha
    cases ha
    refine .switch h (by rw [bk_A, bk_A]) (bk_faithful g) fun hg i => ?_
    cases g with
    | false => exact absurd (show Demo.py.isGpu = true from hg) (by decide)
    | true =>
      simp only [allowed, Bool.not_true, Bool.false_or, Bool.and_eq_true, List.isEmpty_iff] at hd
      cases hpi : st.2.1.ptr i with
      | none => rfl
      | some p =>
        have := (C69_memory low_fresh (by rw [hd.1]; rfl) hr).1 i p hpi
        rw [hd.2] at this; cases this

theorem acts_sound {g0 : Bool} {ds : List Do} {st st' : State} (h : RunsPS low (bk g0) Ptr.init [] [] (bk st.1) st.2.1 st.2.2.1 st.2.2.2) (ha : actsB st ds = some st') :
    RunsPS low (bk g0) Ptr.init [] [] (bk st'.1) st'.2.1 st'.2.2.1 st'.2.2.2 := by
  induction ds generalizing st with
  | nil => cases ha; exact h
  | cons d ds ih =>
    simp only [actsB] at ha
    split at ha
    · rename_i hd
      cases e : act st d with
      | none => rw [e] at ha; cases ha
      | some s1 => rw [e] at ha; exact ih (act_sound h hd e) ha
    · cases ha

/-- The list `tolist` returns. -/
noncomputable def read (st : Option State) (a : Nat) : Option (Except Err (List Int × List Int)) := st.map fun st =>
  match Ptr.step (bk st.1) low st.2.1 (.tolist a) with
  | .ok (.list l, _) => .ok (shapeOf l, leaves l)
  | .ok _ => .error .badRef
  | .error e => .error e

/-- An array computed on CUDA and not read, another CUDA context, and another array computed there. -/
def clash : List Do := [.call (.array Demo.m23), .call (.bin .add 0 0), .call (.materialize 1), .reset true, .call (.array Demo.m23), .call (.bin .mul 2 2), .call (.materialize 3)]

end AddrDemo

open AddrDemo

/-- C69 fails without the condition, reading: `a = x + x; a.materialize()` on CUDA, then `backend.reset("CUDA")`, and `b = y * y; b.materialize()` gets the address `a` still points to:
`a.tolist()` returns `b`'s elements (should be `[[2, 4, 6], [8, 10, 12]]`). -/
theorem C69_counterexample_read : read (acts (start true) clash) 1 = some (.ok ([2, 3], [1, 4, 9, 16, 25, 36])) ∧ read (acts (start true) (clash.take 3)) 1 = some (.ok ([2, 3], [2, 4, 6, 8, 10, 12])) ∧
    read (acts (start true) clash) 3 = some (.ok ([2, 3], [1, 4, 9, 16, 25, 36])) := by decide +kernel

/-- C69 fails without the condition, freeing: if the program then drops `a` and the interpreter collects it, `cuMemFree` gets the address of `b`'s block: `b.tolist()` raises. -/
theorem C69_counterexample_free : read (acts (start true) (clash ++ [.drop [2, 3], .collect 1])) 3 = some (.error .device) := by decide +kernel

namespace AddrDemo

/-- A program within the condition: computing on CUDA, dropping and collecting everything that has a pointer, another CUDA context whose array gets the same address, then the Python backend. -/
def good : List Do := [.call (.array Demo.m23), .call (.bin .add 0 0), .call (.materialize 1), .drop [], .collect 1, .collect 0, .reset true,
  .call (.array Demo.m23), .call (.bin .mul 2 2), .call (.materialize 3), .call (.tolist 3), .reset false, .call (.bin .sub 3 2), .call (.materialize 4)]

noncomputable def goodSt : State := (actsB (start true) good).getD (start true)

/-- The same up to the second array. -/
noncomputable def midSt : State := (actsB (start true) (good.take 10)).getD (start true)

theorem reach {g g' : Bool} {ds : List Do} {st : State} (e : (actsB (start g) ds).getD (start g) = st) (h : (actsB (start g) ds).isSome = true) (h' : st.1 = g') :
    ReachableP low (bk g') st.2.1 st.2.2.1 st.2.2.2 := by
  obtain ⟨s, hs⟩ := Option.isSome_iff_exists.1 h
  rw [hs] at e
  cases e
  rw [← h']
  exact ⟨_, bk_faithful g, acts_sound .refl hs⟩

theorem good_reach : ReachableP low (bk false) goodSt.2.1 goodSt.2.2.1 goodSt.2.2.2 := reach (g := true) (ds := good) rfl (by decide +kernel) (by decide +kernel)

theorem mid_reach : ReachableP low (bk true) midSt.2.1 midSt.2.2.1 midSt.2.2.2 := reach (g := true) (ds := good.take 10) rfl (by decide +kernel) (by decide +kernel)

end AddrDemo

/-- The theorems apply: the second context gave the address of the first to another array; the program refers to arrays 2 and 3 (on CUDA) and 2, 3 and 4 (on the Python backend); arrays 0 and 1 were
collected. -/
example : midSt.2.1.ptr 3 = some 0 ∧ midSt.2.1.ptr 2 = some 1 ∧ midSt.2.1.heap.map (·.1) = [1, 0] ∧ goodSt.2.2 = ([4, 3, 2], [0, 1]) ∧ goodSt.2.1.w.g.shape 4 = [2, 3] := by decide +kernel

example : ComputesP (bk false) low goodSt.2.1 goodSt.2.2.1 goodSt.2.2.2 4 (value (bk false) goodSt.2.1.w 4) :=
  C69_computes_partial low_fresh good_reach (by decide +kernel) (.base (by decide +kernel))

example : (∀ i p, midSt.2.1.ptr i = some p → p ∈ [1, 0]) ∧ ∀ p ∈ [1, 0], ∃ i, i ∉ [0, 1] ∧ midSt.2.1.ptr i = some p := by
  have h := C69_memory low_fresh rfl mid_reach
  have e : midSt.2.1.heap.map (·.1) = [1, 0] := by decide +kernel
  have e2 : midSt.2.2.2 = [0, 1] := by decide +kernel
  rw [e, e2] at h
  exact ⟨h.1, h.2.2.2⟩

/-- Array 3, read on CUDA, is read again on the Python backend. -/
example : ∃ l s1 s2, Ptr.step (bk true) low midSt.2.1 (.tolist 3) = .ok (.list l, s1) ∧ Ptr.step (bk false) low (Ptr.switch s1) (.tolist 3) = .ok (.list l, s2) := by
  have hl : (match Ptr.step (bk true) low midSt.2.1 (.tolist 3) with | .ok (.list _, _) => true | _ => false) = true := by decide +kernel
  split at hl
  · rename_i l s1 h
    obtain ⟨s2, h2⟩ := C69_stable low_fresh mid_reach (by decide +kernel) h
      (.switch .refl (by rw [bk_A, bk_A]) (bk_faithful false) (fun h => absurd (show Demo.py.isGpu = true from h) (by decide))) (by decide +kernel)
    exact ⟨l, s1, s2, h, h2⟩
  · cases hl

end Whale.Props
