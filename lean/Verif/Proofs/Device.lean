import Verif.Spec.Device
/-
The device trace and the contents of device memory.
-/
namespace Whale
open Mat
variable {V : Type}

/-- `c i`: array `i` has CPU content; `d`: device memory; `out`: an array whose memory may not be initialised yet. -/
structure EvSt (c : Nat → Prop) (out : Option Nat) (d : Nat → Option (List V)) (ev : List DevEvent) : Prop where
  ok : DevTraceOK ev
  dev : ∀ i, (d i).isSome ↔ Allocated ev i
  src : ∀ i, some i ≠ out → (d i).isSome → (c i ∧ Since ev i (.copyIn i)) ∨ ∃ ins, Since ev i (.launch i ins)

theorem EvSt.mono {c c' : Nat → Prop} {o : Option Nat} {d : Nat → Option (List V)} {ev : List DevEvent} (h : EvSt c o d ev) (hc : ∀ i, c i → c' i) : EvSt c' o d ev :=
  ⟨h.ok, h.dev, fun i ho hi => (h.src i ho hi).imp_left fun p => ⟨hc i p.1, p.2⟩⟩

theorem EvSt.weaken {c : Nat → Prop} {o : Option Nat} {d : Nat → Option (List V)} {ev : List DevEvent} (h : EvSt c none d ev) : EvSt c o d ev :=
  ⟨h.ok, h.dev, fun i _ hi => h.src i (by simp) hi⟩

theorem isSome_upd (d : Nat → Option (List V)) (i j : Nat) (l : List V) : (upd d i l j).isSome ↔ j = i ∨ (d j).isSome := by
  unfold upd; by_cases h : j = i <;> simp [h]

theorem since_snoc {ev : List DevEvent} {e e' : DevEvent} {i : Nat} : Since (ev ++ [e']) i e ↔ (Since ev i e ∧ e' ≠ .free i) ∨ e' = e := by
  constructor
  · rintro ⟨pre, post, h, hf⟩
    rcases List.eq_nil_or_concat post with rfl | ⟨post', x, rfl⟩
    · obtain ⟨_, h2⟩ := List.append_inj' h rfl
      cases h2; exact .inr rfl
    · rw [List.concat_eq_append] at h hf
      rw [← List.cons_append, ← List.append_assoc] at h
      obtain ⟨rfl, h2⟩ := List.append_inj' h rfl
      cases h2
      simp only [List.mem_append, List.mem_singleton, not_or] at hf
      exact .inl ⟨⟨pre, post', rfl, hf.1⟩, fun h => hf.2 h.symm⟩
  · rintro (⟨⟨pre, post, rfl, hf⟩, hne⟩ | rfl)
    · exact ⟨pre, post ++ [e'], by simp, by simp [hf, Ne.symm hne]⟩
    · exact ⟨ev, [], rfl, by simp⟩

/-- An event that frees nothing. -/
theorem Since.snoc {ev : List DevEvent} {e e' : DevEvent} {i : Nat} (h : Since ev i e) (hne : e' ≠ .free i := by simp) : Since (ev ++ [e']) i e := since_snoc.2 (.inl ⟨h, hne⟩)

theorem Since.last {ev : List DevEvent} {e : DevEvent} {i : Nat} : Since (ev ++ [e]) i e := since_snoc.2 (.inr rfl)

theorem allocated_snoc {ev : List DevEvent} {e : DevEvent} {j : Nat} (hne : e ≠ .free j := by simp) : Allocated (ev ++ [e]) j ↔ Allocated ev j ∨ ∃ n, e = .alloc j n := by
  simp only [Allocated, since_snoc]
  constructor
  · rintro ⟨n, h | h⟩
    · exact .inl ⟨n, h.1⟩
    · exact .inr ⟨n, h⟩
  · rintro (⟨n, h⟩ | ⟨n, h⟩)
    · exact ⟨n, .inl ⟨h, hne⟩⟩
    · exact ⟨n, .inr h⟩

theorem EvSt.alloc {c : Nat → Prop} {o : Option Nat} {d : Nat → Option (List V)} {ev : List DevEvent} (h : EvSt c o d ev) {i : Nat} (hi : d i = none) {n : Int}
    (hn : 0 < n) (l : List V) (ho : o = none ∨ o = some i) : EvSt c (some i) (upd d i l) (ev ++ [.alloc i n]) := by
  refine ⟨.snoc h.ok ⟨fun ha => ?_, hn⟩, fun j => ?_, fun j hj hs => ?_⟩
  · have := (h.dev i).2 ha; rw [hi] at this; cases this
  · rw [isSome_upd, allocated_snoc, h.dev]
    constructor
    · rintro (rfl | h)
      · exact .inr ⟨n, rfl⟩
      · exact .inl h
    · rintro (h | ⟨m, h⟩)
      · exact .inr h
      · cases h; exact .inl rfl
  · have hji : j ≠ i := fun e => hj (by rw [e])
    rw [isSome_upd] at hs
    refine (h.src j (by rcases ho with rfl | rfl <;> simp [hji]) (hs.resolve_left hji)).imp (fun p => ⟨p.1, p.2.snoc⟩) (fun ⟨ins, p⟩ => ⟨ins, p.snoc⟩)

theorem EvSt.copyIn {c : Nat → Prop} {o : Option Nat} {d : Nat → Option (List V)} {ev : List DevEvent} (h : EvSt c o d ev) {i : Nat} (hi : (d i).isSome)
    (hc : c i) (l : List V) : EvSt c o (upd d i l) (ev ++ [.copyIn i]) := by
  refine ⟨.snoc h.ok ((h.dev i).1 hi), fun j => ?_, fun j hj hs => ?_⟩
  · rw [isSome_upd, allocated_snoc, h.dev]
    constructor
    · rintro (rfl | h')
      · exact .inl ((h.dev j).1 hi)
      · exact .inl h'
    · rintro (h' | ⟨m, h'⟩)
      · exact .inr h'
      · cases h'
  · by_cases e : j = i
    · subst e; exact .inl ⟨hc, .last⟩
    · rw [isSome_upd] at hs
      exact (h.src j hj (hs.resolve_left e)).imp (fun p => ⟨p.1, p.2.snoc⟩) (fun ⟨ins, p⟩ => ⟨ins, p.snoc⟩)

/-- Allocation of an input followed by the copy. -/
theorem EvSt.allocCopy {c : Nat → Prop} {o : Option Nat} {d : Nat → Option (List V)} {ev : List DevEvent} (h : EvSt c o d ev) {i : Nat} (hi : d i = none) {n : Int}
    (hn : 0 < n) (l l' : List V) (hc : c i) : EvSt c o (upd (upd d i l) i l') ((ev ++ [.alloc i n]) ++ [.copyIn i]) := by
  have ha : ¬ Allocated ev i := fun ha => by
    have := (h.dev i).2 ha; rw [hi] at this; cases this
  have ok1 : DevTraceOK (ev ++ [.alloc i n]) := .snoc h.ok ⟨ha, hn⟩
  refine ⟨.snoc ok1 ⟨n, .last⟩, fun j => ?_, fun j hj hs => ?_⟩
  · rw [isSome_upd, isSome_upd, allocated_snoc, allocated_snoc, h.dev]
    constructor
    · rintro (rfl | rfl | h')
      · exact .inl (.inr ⟨n, rfl⟩)
      · exact .inl (.inr ⟨n, rfl⟩)
      · exact .inl (.inl h')
    · rintro ((h' | ⟨m, h'⟩) | ⟨m, h'⟩)
      · exact .inr (.inr h')
      · cases h'; exact .inl rfl
      · cases h'
  · by_cases e : j = i
    · subst e; exact .inl ⟨hc, .last⟩
    · rw [isSome_upd, isSome_upd] at hs
      have hs : (d j).isSome := by rcases hs with h | h | h <;> first | exact absurd h e | exact h
      exact (h.src j hj hs).imp (fun p => ⟨p.1, p.2.snoc.snoc⟩) (fun ⟨ins, p⟩ => ⟨ins, p.snoc.snoc⟩)

theorem EvSt.launch {c : Nat → Prop} {out : Nat} {ins : List Nat} {d : Nat → Option (List V)} {ev : List DevEvent} (h : EvSt c (some out) d ev)
    (ho : (d out).isSome) (hi : ∀ i ∈ ins, (d i).isSome) (hni : out ∉ ins) (l : List V) : EvSt c none (upd d out l) (ev ++ [.launch out ins]) := by
  refine ⟨.snoc h.ok ⟨(h.dev out).1 ho, hni, fun i hm => ⟨(h.dev i).1 (hi i hm), ?_⟩⟩, fun j => ?_, fun j hj hs => ?_⟩
  · have hne : some i ≠ some out := by rintro ⟨⟩; exact hni hm
    exact (h.src i hne (hi i hm)).imp And.right id
  · rw [isSome_upd, allocated_snoc, h.dev]
    constructor
    · rintro (rfl | h')
      · exact .inl ((h.dev j).1 ho)
      · exact .inl h'
    · rintro (h' | ⟨m, h'⟩)
      · exact .inr h'
      · cases h'
  · by_cases e : j = out
    · subst e; exact .inr ⟨ins, .last⟩
    · rw [isSome_upd] at hs
      exact (h.src j (by simp [e]) (hs.resolve_left e)).imp (fun p => ⟨p.1, p.2.snoc⟩) (fun ⟨ins, p⟩ => ⟨ins, p.snoc⟩)

theorem EvSt.copyOut {c : Nat → Prop} {d : Nat → Option (List V)} {ev : List DevEvent} (h : EvSt c none d ev) {i : Nat} (hi : (d i).isSome) (hc : ¬ c i) :
    EvSt c none d (ev ++ [.copyOut i]) := by
  refine ⟨.snoc h.ok ⟨(h.dev i).1 hi, (h.src i (by simp) hi).resolve_left fun p => hc p.1⟩, fun j => ?_, fun j hj hs => ?_⟩
  · rw [allocated_snoc, h.dev]
    constructor
    · exact .inl
    · rintro (h' | ⟨m, h'⟩)
      · exact h'
      · cases h'
  · exact (h.src j hj hs).imp (fun p => ⟨p.1, p.2.snoc⟩) (fun ⟨ins, p⟩ => ⟨ins, p.snoc⟩)

theorem EvSt.free {c : Nat → Prop} {d : Nat → Option (List V)} {ev : List DevEvent} (h : EvSt c none d ev) {i : Nat} (hi : (d i).isSome) :
    EvSt c none (fun j => if j = i then none else d j) (ev ++ [.free i]) := by
  refine ⟨.snoc h.ok ((h.dev i).1 hi), fun j => ?_, fun j hj hs => ?_⟩
  · by_cases e : j = i
    · subst e
      simp only [if_true, Option.isSome_none, Bool.false_eq_true, false_iff]
      rintro ⟨n, hn⟩
      rcases since_snoc.1 hn with h | h
      · exact h.2 rfl
      · cases h
    · rw [if_neg e, allocated_snoc (by simp; exact fun h => e h.symm), h.dev]
      constructor
      · exact .inl
      · rintro (h' | ⟨m, h'⟩)
        · exact h'
        · cases h'
  · by_cases e : j = i
    · subst e; simp at hs
    · rw [if_neg e] at hs
      have hne : DevEvent.free i ≠ .free j := by simp; exact fun h => e h.symm
      exact (h.src j hj hs).imp (fun p => ⟨p.1, p.2.snoc hne⟩) (fun ⟨ins, p⟩ => ⟨ins, p.snoc hne⟩)

/-- The trace and the memory of a world. -/
def EvInv (w : World V) : Prop := EvSt (fun i => (cpuBuf w i).isSome) none w.dev w.ev

end Whale
