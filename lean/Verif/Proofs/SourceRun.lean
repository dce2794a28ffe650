import Verif.Proofs.Source
import Verif.Proofs.Debug
import Verif.Proofs.DemoDev
/-
Sessions with source texts do not depend on the field `run` of the backend (which runs statement trees).
-/
namespace Whale
open Mat Hist
variable {V : Type}

/-- The same run time, with another way to run statement trees. -/
def Runtime.withRun (R : Runtime V) (run : Nat → Machine V → Schedule → Stmt → Option (List (Int × V))) : Runtime V := { R with b := { R.b with run := run } }

/-- There is a way to run statement trees by the rules of the language. -/
theorem faithful_run (R : Runtime V) : ∃ run, Faithful (R.withRun run).b :=
  ⟨(demoBackend R.b.A R.b.isC R.b.isGpu R.b.junk).run, demoBackend_faithful R.b.A R.b.isC R.b.isGpu R.b.junk⟩

variable {R : Runtime V} {run : Nat → Machine V → Schedule → Stmt → Option (List (Int × V))}

theorem withRun_runFunc (t : Tbl) (fuel : Nat) : Src.runFunc (R.withRun run) t fuel = Src.runFunc R t fuel := rfl

theorem withRun_materializeF : ∀ (fuel : Nat) (s : SWorld V) (a : Nat), Src.materializeF (R.withRun run) fuel s a = Src.materializeF R fuel s a
  | 0, _, _ => rfl
  | fuel + 1, s, a => by
    unfold Src.materializeF
    simp only [withRun_materializeF fuel, withRun_runFunc]
    rfl

theorem withRun_step0 (w : World V) {c : Call V} (hne : ∀ a, c ≠ .materialize a) : step (R.withRun run).b w c = step R.b w c := by
  unfold step
  cases c <;> first | rfl | exact absurd rfl (hne _)

theorem withRun_step (s : SWorld V) (c : Call V) : Src.step (R.withRun run) s c = Src.step R s c := by
  unfold Src.step
  cases c <;> first | rfl | (simp only [Src.exec1, Src.materialize, withRun_materializeF])

theorem withRun_sruns {s s' : SWorld V} : SRuns (R.withRun run) s s' ↔ SRuns R s s' := by
  constructor
  · intro h
    induction h with
    | refl => exact .refl
    | call _ hok hs ih => exact .call ih hok (by rw [withRun_step] at hs; exact hs)
    | stopped _ hy hok hs ih => exact .stopped ih hy hok hs
  · intro h
    induction h with
    | refl => exact .refl
    | call _ hok hs ih => exact .call ih hok (by rw [withRun_step]; exact hs)
    | stopped _ hy hok hs ih => exact .stopped ih hy hok hs

theorem withRun_sreachable {s : SWorld V} : SReachable (R.withRun run) s ↔ SReachable R s := withRun_sruns

theorem withRun_stracks {s : SWorld V} {H : List (Nat × Tensor V)} : STracks (R.withRun run) s H ↔ STracks R s H := by
  constructor
  · intro h
    induction h with
    | init => exact .init
    | returns ρ _ hok hin hs hm ih => exact .returns ρ ih hok hin (by rw [withRun_step] at hs; exact hs) hm
    | other _ hok hs ih => exact .other ih hok (by rw [withRun_step] at hs; exact hs)
    | stopped _ hy hok hs ih => exact .stopped ih hy hok hs
  · intro h
    induction h with
    | init => exact .init
    | returns ρ _ hok hin hs hm ih => exact .returns ρ ih hok hin (by rw [withRun_step]; exact hs) hm
    | other _ hok hs ih => exact .other ih hok (by rw [withRun_step]; exact hs)
    | stopped _ hy hok hs ih => exact .stopped ih hy hok hs

theorem Runtime.OK.withRun (h : R.OK) : (R.withRun run).OK := ⟨h.lang, h.hex, h.order⟩

theorem Matches.withRun {s : SWorld V} {w : World V} (h : Matches (R.withRun run) s w) : Matches R s w := ⟨h.same, h.texts⟩

end Whale
