import Verif.Proofs.EmbedF
import Verif.Props.Cache
/-
C71: other code in the same interpreter does not influence a program.
-/
namespace Whale.Props
open Hist Mat
variable {V : Type}

/-- C71: `u` is the interpreter in which a program has run alone, `w` one in which the same program has run amid other code; array `i` of the one is array `ρ i` of the other.  Every further call of the
program that neither materializes nor reads back returns the corresponding array (`None` for `None`), or raises the same exception. -/
theorem C71_call {b : Backend V} (hb : Faithful b) {u w : World V} {ρ : Nat → Nat} (h : Amid b u w ρ) {c : Call V} (hin : ∀ a ∈ c.arrays, a < u.g.length)
    (hm : ∀ a, c ≠ .materialize a) (ht : ∀ a, c ≠ .tolist a) :
    (∀ r u', step b u c = .ok (r, u') → ∃ w', step b w (c.ren ρ) = .ok (r.ren (extend ρ u.g.length w.g.length), w')) ∧ (∀ e, step b u c = .error e → step b w (c.ren ρ) = .error e) := by
  have hz : lazyCall c = true := Classical.byContradiction fun hz => by
    rcases notLazy hz with ⟨a, e⟩ | ⟨a, e⟩
    · exact hm a e
    · exact ht a e
  have hi := h.mirror hb
  have hs := step_emb b hi.iu.winv.wf hi.emb hz
  rw [← Call.ren_extend hin] at hs
  constructor
  · intro r u' hu
    rw [hu] at hs
    match hy : step b w (c.ren ρ), hs with
    | .ok (o, w1), hs => rw [hs.1]; exact ⟨w1, rfl⟩
  · intro e hu
    rw [hu] at hs
    match hy : step b w (c.ren ρ), hs with
    | .error _, rfl => rfl

/-- C71: what `tolist()` returns to the program alone, it returns amid other code. -/
theorem C71_tolist {b : Backend V} (hb : Faithful b) {u w : World V} {ρ : Nat → Nat} (h : Amid b u w ρ) {a : Nat} {l : Nested V} {u' : World V} (hu : step b u (.tolist a) = .ok (.list l, u')) :
    ∃ w', step b w (.tolist (ρ a)) = .ok (.list l, w') := by
  have hi := h.mirror hb
  have ha : a < u.g.length := by
    unfold step at hu
    split at hu
    · rename_i hin; exact hin a (.head _)
    · cases hu
  rw [step_eq (by simpa [Call.arrays] using ha)] at hu
  simp only [exec1] at hu
  cases ht : tolist b u a with
  | error e => rw [ht] at hu; cases hu
  | ok p =>
    have hav := tolist_avail ht
    obtain ⟨u1, e1⟩ := tolist_strided hi.iu.winv ha hav
    rw [e1] at ht; cases ht
    rw [e1] at hu
    simp only [Except.map] at hu
    have hbl := Nat.lt_of_le_of_lt (base_le hi.iu.winv.wf ha) ha
    have hra : extend ρ u.g.length w.g.length a = ρ a := extend_lt ha
    have hlt : ρ a < w.g.length := by rw [← hra]; exact hi.emb.g.lt.2 ha
    obtain ⟨w1, e2⟩ := tolist_strided hi.iw.winv hlt (by
      rw [← hra, base_emb hi.emb.g hi.iu.winv.wf ha, extend_lt hbl]
      exact hi.avail _ hbl hav)
    refine ⟨w1, ?_⟩
    rw [step_eq (by simpa [Call.arrays] using hlt)]
    simp only [exec1, e2, Except.map]
    rw [← hra, strided_emb b hi.iu.winv.wf hi.emb ha]
    simp only [Except.ok.injEq, Prod.mk.injEq] at hu ⊢
    exact ⟨hu.1, trivial⟩

/-- C71: the program can go on amid other code whenever it can alone: a call in the domain alone is in the domain amid, and has a corresponding outcome.  For `materialize()` the cache keys of its kernels must not
collide with those of kernels compiled before (C25); this is the only way in which other code can interfere, and it does (`C71_counterexample`). -/
theorem C71_continue_partial {b : Backend V} (hb : Faithful b) {u w u' : World V} {ρ : Nat → Nat} (h : Amid b u w ρ) {c : Call V} (hin : ∀ a ∈ c.arrays, a < u.g.length)
    (hl : Legal b u c) (hn : next b u c = some u') (hc : ∀ a, c = .materialize a → NoCollision (w.log ++ launchLog b.isGpu w.g (ρ a))) :
    ∃ w', next b w (c.ren ρ) = some w' ∧ Amid b u' w' (extend ρ u.g.length w.g.length) ∧ (∀ e, step b u c = .error e → (∀ a, c ≠ .tolist a) → step b w (c.ren ρ) = .error e) := by
  have hi := h.mirror hb
  have hargs : ArgsOK b u c → ArgsOK b w (c.ren ρ) := fun ha => by
    rw [Call.ren_extend (m := w.g.length) hin]
    exact argsOK_emb hi.iu.winv.wf hi.emb hin ha fun a e => by
      subst e
      rw [extend_lt (hin a (.head _))]; exact hc a rfl
  by_cases hz : lazyCall c = true
  · have hcall := C71_call hb h hin (fun a e => by subst e; cases hz) (fun a e => by subst e; cases hz)
    cases hs : step b u c with
    | ok p =>
      obtain ⟨r, u1⟩ := p
      obtain ⟨w', hw'⟩ := hcall.1 r u1 hs
      have hnw : next b w (c.ren ρ) = some w' := by unfold next; rw [hw']
      have hla : Legal b w (c.ren ρ) := .inr (hargs (hl.resolve_left fun ⟨e, he⟩ => by rw [hs] at he; cases he))
      exact ⟨w', hnw, .mine h hin hl hla hn hnw, fun e he => by cases he⟩
    | error e =>
      have hw' := hcall.2 e hs
      have hat : Call.atomic c = true := by
        unfold next at hn
        rw [hs] at hn
        simp only at hn
        split at hn
        · assumption
        · cases hn
      have hnw : next b w (c.ren ρ) = some w := by unfold next; rw [hw']; simp only [atomic_ren, hat, if_true]
      exact ⟨w, hnw, .mine h hin hl (.inl ⟨e, hw'⟩) hn hnw, fun e' he' _ => by cases he'; exact hw'⟩
  · rcases notLazy hz with ⟨a, rfl⟩ | ⟨a, rfl⟩
    · obtain ⟨ha, hmu, o, hsu⟩ := next_materialize hn
      have haw := hargs (hl.resolve_left fun ⟨e, he⟩ => by rw [hsu] at he; cases he)
      simp only [Call.ren] at haw ⊢
      have hlt : ρ a < w.g.length := by
        have := hi.emb.g.lt.2 ha
        rwa [extend_lt ha] at this
      obtain ⟨w1, e1, r1⟩ := materialize_ok hb hi.iw.winv hlt haw.1 haw.2.1 (fun hg => kernelSizes_of hi.iw.winv.wf hlt haw.1 (haw.2.2 hg))
      have s1 : step b w (.materialize (ρ a)) = .ok (.unit, w1) := by
        rw [step_eq (by simpa [Call.arrays] using hlt)]; simp only [exec1, e1, Except.map]
      have hnw : next b w (.materialize (ρ a)) = some w1 := by unfold next; rw [s1]
      exact ⟨w1, hnw, .mine h hin hl (.inr haw) hn hnw, fun e he => by rw [hsu] at he; cases he⟩
    · have hnw : ∃ w', next b w (.tolist (ρ a)) = some w' := by
        unfold next
        cases step b w (.tolist (ρ a)) with
        | ok p => exact ⟨_, rfl⟩
        | error e => exact ⟨_, rfl⟩
      obtain ⟨w', hnw⟩ := hnw
      exact ⟨w', hnw, .mine h hin hl (.inr trivial) hn hnw, fun e _ he => absurd rfl (he a)⟩

/-- C71: the arrays of the program have the same shapes, dtypes and values, and the corresponding gradients, alone and amid other code. -/
theorem C71_state {b : Backend V} (hb : Faithful b) {u w : World V} {ρ : Nat → Nat} (h : Amid b u w ρ) {a : Nat} (ha : a < u.g.length) :
    ρ a < w.g.length ∧ w.g.shape (ρ a) = u.g.shape a ∧ w.g.dtype (ρ a) = u.g.dtype a ∧ value b w (ρ a) = value b u a ∧ w.grad (ρ a) = (u.grad a).map ρ ∧ ∀ a' < u.g.length, ρ a = ρ a' → a = a' := by
  have hi := h.mirror hb
  have hra : extend ρ u.g.length w.g.length a = ρ a := extend_lt ha
  rw [← hra]
  refine ⟨hi.emb.g.lt.2 ha, hi.emb.g.shape a, hi.emb.g.dtype a, den_emb b.A hi.emb.g hi.iu.winv.wf ha, ?_, fun a' ha' e => ?_⟩
  · rw [hi.emb.grad a]
    cases hk : u.grad a with
    | none => rfl
    | some k => simp only [Option.map_some]; rw [extend_lt (hi.iu.gs a k hk).2.1]
  · rw [← extend_lt (ρ := ρ) (m := w.g.length) ha'] at e
    exact hi.emb.g.inj.1 e

/-! ### concrete cases and a counterexample -/

/-- A call of the program, or of the other code. -/
inductive Turn | mine (c : Call Int) | other (c : Call Int)

/-- The call of the other code certainly assigns no gradient of the program's arrays. -/
def harmless (n : Nat) (ρ : Nat → Nat) : Call Int → Bool
  | .clearGrad a => (List.range n).all fun i => ρ i != a
  | .setGrad a _ => (List.range n).all fun i => ρ i != a
  | .backward y => (List.range n).all fun i => y < ρ i
  | _ => true

/-- Run program and other code; every call must succeed and have its arguments in the domain. -/
def turns : World Int × World Int × (Nat → Nat) → List Turn → Option (World Int × World Int × (Nat → Nat))
  | s, [] => some s
  | (u, w, ρ), .mine c :: ts => match step Demo.py u c, step Demo.py w (c.ren ρ) with
    | .ok (_, u'), .ok (_, w') => if argsOKb Demo.py u c && argsOKb Demo.py w (c.ren ρ) then turns (u', w', extend ρ u.g.length w.g.length) ts else none
    | _, _ => none
  | (u, w, ρ), .other c :: ts => match step Demo.py w c with
    | .ok (_, w') => if argsOKb Demo.py w c && harmless u.g.length ρ c then turns (u, w', ρ) ts else none
    | _ => none

theorem in_of_step {b : Backend V} {w : World V} {c : Call V} {p : Out V × World V} (hs : step b w c = .ok p) : ∀ a ∈ c.arrays, a < w.g.length := by
  unfold step at hs
  split at hs
  · assumption
  · cases hs

theorem turns_sound : ∀ {ts : List Turn} {s s' : World Int × World Int × (Nat → Nat)}, turns s ts = some s' → Amid Demo.py s.1 s.2.1 s.2.2 → Amid Demo.py s'.1 s'.2.1 s'.2.2
  | [], s, s', h, ha => by cases h; exact ha
  | .mine c :: ts, (u, w, ρ), s', h, ha => by
    simp only [turns] at h
    split at h
    · rename_i o u' o' w' hu hw
      split at h
      · rename_i hc
        simp only [Bool.and_eq_true] at hc
        have hi := ha.mirror Demo.py_faithful
        refine turns_sound h (.mine ha (in_of_step hu) (.inr (argsOKb_sound (in_of_step hu) hi.iu.winv.wf hc.1)) (.inr (argsOKb_sound (in_of_step hw) hi.iw.winv.wf hc.2)) ?_ ?_)
        · unfold next; rw [hu]
        · unfold next; rw [hw]
      · cases h
    · cases h
  | .other c :: ts, (u, w, ρ), s', h, ha => by
    simp only [turns] at h
    split at h
    · rename_i o w' hw
      split at h
      · rename_i hc
        simp only [Bool.and_eq_true] at hc
        have hi := ha.mirror Demo.py_faithful
        refine turns_sound h (.other ha (.inr (argsOKb_sound (in_of_step hw) hi.iw.winv.wf hc.1)) (fun i hlt hs => ?_) (by unfold next; rw [hw]))
        have hh := hc.2
        cases c <;> simp only [SetsGrad] at hs
        case clearGrad a => simp only [harmless, List.all_eq_true, List.mem_range, bne_iff_ne] at hh; exact hh i hlt hs.symm
        case setGrad a k => simp only [harmless, List.all_eq_true, List.mem_range, bne_iff_ne] at hh; exact hh i hlt hs.symm
        case backward y =>
          simp only [harmless, List.all_eq_true, List.mem_range, decide_eq_true_eq] at hh
          have := hh i hlt
          have := hs.le hi.iw.winv.wf (in_of_step hw y (.head _))
          omega
      · cases h
    · cases h

/-- Program and other code from fresh interpreters. -/
def both (ts : List Turn) : World Int × World Int × (Nat → Nat) := (turns (Mat.init, Mat.init, fun i => i) ts).getD (Mat.init, Mat.init, fun i => i)

theorem both_amid {ts : List Turn} (h : (turns (Mat.init, Mat.init, fun i => i) ts).isSome = true) : Amid Demo.py (both ts).1 (both ts).2.1 (both ts).2.2 := by
  obtain ⟨s, hs⟩ := Option.isSome_iff_exists.1 h
  have : both ts = s := by unfold both; rw [hs]; rfl
  rw [this]
  exact turns_sound hs (.start _ .init)

/-- Shape and elements of the list that `a.tolist()` returns. -/
def listAt (w : World Int) (a : Nat) : Option (List Int × List Int) := match step Demo.py w (.tolist a) with
  | .ok (.list l, _) => some (shapeOf l, leaves l)
  | _ => none

/-- The array that a call returns. -/
def arrAt (w : World Int) (c : Call Int) : Option Nat := match step Demo.py w c with
  | .ok (.arr i, _) => some i
  | _ => none

/-- The program: `v = array([1, 2, 3])`, `z = (v * v).sum()`, `z.backward()`, `g = v.grad`, `g.materialize()`.  The other code has made arrays and run `backward` before, uses `v`, materializes an array
computed from it, reads it, resets the backend and changes the gradient of its own array. -/
def busy : List Turn :=
  [.other (.array (.node [.leaf 7, .leaf 8])), .other (.sum 0 .none false), .other (.backward 1),
   .mine (.array (.node [.leaf 1, .leaf 2, .leaf 3])), .other (.un .neg 5), .other (.materialize 6), .other (.tolist 6),
   .mine (.bin .mul 0 0), .mine (.sum 1 .none false), .other (.clearGrad 0), .other .reset, .mine (.backward 2), .other (.bin .add 5 6), .mine (.materialize 8), .other (.materialize 15)]

example : (turns (Mat.init, Mat.init, fun i => i) busy).isSome = true ∧ (both busy).1.g.length = 9 ∧ (both busy).2.1.g.length = 16 ∧ (List.range 9).map (both busy).2.2 = [5, 7, 8, 9, 10, 11, 12, 13, 14] := by
  decide +kernel

/-- `C71_call`: the gradient of `v`, a new array, a subscript out of range. -/
example : arrAt (both busy).1 (.grad 0) = some 8 ∧ arrAt (both busy).2.1 ((Call.grad 0).ren (both busy).2.2) = some 14 ∧
    arrAt (both busy).1 (.bin .add 0 8) = some 9 ∧ arrAt (both busy).2.1 ((Call.bin .add 0 8).ren (both busy).2.2) = some 16 ∧ extend (both busy).2.2 9 16 9 = 16 ∧
    (match step Demo.py (both busy).1 (.getitem 0 [.int 3]) with | .error _ => true | .ok _ => false) = true := by decide +kernel

/-- `C71_tolist`: the gradient `[2, 4, 6]` in both. -/
example : listAt (both busy).1 8 = some ([3], [2, 4, 6]) ∧ listAt (both busy).2.1 ((both busy).2.2 8) = some ([3], [2, 4, 6]) := by decide +kernel

/-- `C71_state`: shape, dtype, value, gradient. -/
example : (both busy).1.g.shape 0 = [3] ∧ (value Demo.py (both busy).2.1 ((both busy).2.2 0)).flatten = [1, 2, 3] ∧ (both busy).1.grad 0 = some 8 ∧ (both busy).2.1.grad 5 = some 14 := by decide +kernel

/-- `C71_continue_partial`: the next `materialize()` of the program is in the domain, and there are no collisions amid the other code. -/
example : argsOKb Demo.py (both busy).1 (.materialize 1) = true ∧ NoCollision ((both busy).2.1.log ++ launchLog false (both busy).2.1.g ((both busy).2.2 1)) ∧
    (match step Demo.py (both busy).1 (.materialize 1) with | .ok _ => true | .error _ => false) = true := by decide +kernel

/-- The other code materializes `v.pad(0, 1, 1)`; the program makes `v.pad(0, 2, 0)` for its own `v`. -/
def clash : List Turn :=
  [.other (.array (.node [.leaf 1, .leaf 2, .leaf 3])), .other (.pad 0 0 1 1), .other (.materialize 1), .mine (.array (.node [.leaf 1, .leaf 2, .leaf 3])), .mine (.pad 0 0 2 0)]

/-- Shape and elements of the list that `a.materialize(); a.tolist()` returns. -/
def matListAt (w : World Int) (a : Nat) : Option (List Int × List Int) := match step Demo.py w (.materialize a) with
  | .ok (_, w') => listAt w' a
  | .error _ => none

theorem matListAt_some {w : World Int} {a : Nat} {r : List Int × List Int} (h : matListAt w a = some r) :
    ∃ w1 l w2, next Demo.py w (.materialize a) = some w1 ∧ step Demo.py w1 (.tolist a) = .ok (.list l, w2) ∧ shapeOf l = r.1 ∧ leaves l = r.2 := by
  unfold matListAt at h
  split at h
  · rename_i o w1 e1
    unfold listAt at h
    split at h
    · rename_i l w2 e2
      cases h
      exact ⟨w1, l, w2, by unfold next; rw [e1], e2, rfl, rfl⟩
    · cases h
  · cases h

/-- C71 is false in the code without the condition on cache keys: the program materializes and reads `v.pad(0, 2, 0)`; alone it gets `[0, 0, 1, 2, 3]`, but `[0, 1, 2, 3, 0]` if other code has
materialized `v.pad(0, 1, 1)` of an array of its own before. -/
theorem C71_counterexample : ∃ (u w u1 w1 u2 w2 : World Int) (ρ : Nat → Nat) (a : Nat) (l l' : Nested Int), Amid Demo.py u w ρ ∧ a < u.g.length ∧ Legal Demo.py u (.materialize a) ∧
    next Demo.py u (.materialize a) = some u1 ∧ step Demo.py u1 (.tolist a) = .ok (.list l, u2) ∧ leaves l = [0, 0, 1, 2, 3] ∧
    next Demo.py w (.materialize (ρ a)) = some w1 ∧ step Demo.py w1 (.tolist (ρ a)) = .ok (.list l', w2) ∧ leaves l' = [0, 1, 2, 3, 0] := by
  have ha := both_amid (ts := clash) (by decide +kernel)
  obtain ⟨u1, l, u2, h1, h2, _, h3⟩ := matListAt_some (w := (both clash).1) (a := 1) (r := ([5], [0, 0, 1, 2, 3])) (by decide +kernel)
  obtain ⟨w1, l', w2, k1, k2, _, k3⟩ := matListAt_some (w := (both clash).2.1) (a := (both clash).2.2 1) (r := ([5], [0, 1, 2, 3, 0])) (by decide +kernel)
  have hlt : 1 < (both clash).1.g.length := by decide +kernel
  exact ⟨_, _, u1, w1, u2, w2, _, 1, l, l', ha, hlt, .inr (argsOKb_sound (by simpa [Call.arrays] using hlt) (ha.mirror Demo.py_faithful).iu.winv.wf (by decide +kernel)), h1, h2, h3, k1, k2, k3⟩

/-- The program makes `z = v + v`; the other code materializes it. -/
def meddle : List Turn := [.mine (.array (.node [.leaf 1, .leaf 2])), .mine (.bin .add 0 0), .other (.materialize 1)]

/-- C71, why `C71_tolist` is only about lists that are returned alone: after `z.materialize()` by other code, `z.tolist()` returns for the program, which has not materialized `z`; alone it raises. -/
theorem C71_may_read : ∃ (u w : World Int) (ρ : Nat → Nat) (a : Nat), Amid Demo.py u w ρ ∧ a < u.g.length ∧ listAt u a = none ∧ listAt w (ρ a) = some ([2], [2, 4]) :=
  ⟨_, _, _, 1, both_amid (ts := meddle) (by decide +kernel), by decide +kernel, by decide +kernel, by decide +kernel⟩

end Whale.Props
