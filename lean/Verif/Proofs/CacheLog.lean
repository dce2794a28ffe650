import Verif.Proofs.Cache
import Verif.Props.Session
/-
C25: where the entries of the launch log come from.
-/
namespace Whale
open Mat Algo Codegen Hist
variable {V : Type}

/-- The entry is key and fresh code of a function scheduled automatically. -/
def Planned (V : Type) (isGpu : Bool) (p : Key × Except Err (Kernel × Nat)) : Prop :=
  ∃ (g : Graph V) (t : Tbl) (fuel : Nat) (F : Func) (sch : Schedule), cacheKey g t fuel F sch = .ok p.1 ∧ Sched.schedule isGpu F = .ok sch ∧ p.2 = freshCode g t F sch

theorem schedAll_zip {isGpu : Bool} {t : Tbl} : ∀ {funcs : List Nat} {ss : List Schedule}, schedAll isGpu t funcs = .ok ss →
    ∀ p ∈ funcs.zip ss, ∃ F, t p.1 = some F ∧ Sched.schedule isGpu F = .ok p.2
  | [], ss, h, p, hp => by simp at hp
  | f :: fs, ss, h, p, hp => by
    unfold schedAll at h
    rw [List.mapM_cons] at h
    obtain ⟨s, h1, h⟩ := except_bind_ok h
    obtain ⟨r, h2, h⟩ := except_bind_ok h
    cases h
    rcases List.mem_cons.1 hp with rfl | hp
    · cases hF : t f with
      | none => rw [hF] at h1; cases h1
      | some F => rw [hF] at h1; exact ⟨F, rfl, h1⟩
    · exact schedAll_zip h2 p hp

theorem launchLogF_planned (isGpu : Bool) (g : Graph V) : ∀ (fuel a : Nat), ∀ p ∈ launchLogF isGpu g fuel a, Planned V isGpu p
  | 0, a, p, hp => by simp [launchLogF] at hp
  | fuel + 1, a, p, hp => by
    unfold launchLogF at hp
    split at hp
    · simp at hp
    · split at hp
      · split at hp
        · exact launchLogF_planned isGpu g fuel _ p hp
        · simp at hp
      · split at hp
        · simp at hp
        · rename_i funcs t hc
          split at hp
          · simp at hp
          · rename_i ss hs
            obtain ⟨q, hq, he⟩ := List.mem_filterMap.1 hp
            obtain ⟨F, hF, hsch⟩ := schedAll_zip hs q hq
            unfold plan1 at he
            simp only [hF] at he
            split at he
            · rename_i key hk
              cases he
              exact ⟨g, t, _, F, q.2, hk, hsch, rfl⟩
            · cases he

theorem launchLog_planned (isGpu : Bool) (g : Graph V) (a : Nat) : ∀ p ∈ launchLog isGpu g a, Planned V isGpu p := launchLogF_planned isGpu g _ _

theorem step_log {b : Backend V} (hb : Faithful b) {w w' : World V} (hi : Inv b w) {c : Call V} {o : Out V} (ha : ArgsOK b w c) (hs : step b w c = .ok (o, w')) :
    w'.log = w.log ∨ w'.log = [] ∨ ∃ a, c = .materialize a ∧ w'.log = w.log ++ launchLog b.isGpu w.g a := by
  have hs0 := hs
  unfold step at hs
  split at hs
  case isFalse => cases hs
  rename_i hin
  cases c <;> (try (left; obtain ⟨r, g', e', rfl, rfl⟩ := madeE_eq hs; rfl)) <;> (try (left; obtain ⟨rfl, rfl⟩ := made_eq hs; rfl))
  case materialize a =>
    have hal := hin a (by simp [Call.arrays])
    obtain ⟨w1, e1, r1⟩ := materialize_ok hb hi.winv hal ha.1 ha.2.1 (fun hg => kernelSizes_of hi.winv.wf hal ha.1 (ha.2.2 hg))
    simp only [exec1, e1] at hs
    cases hs
    exact .inr (.inr ⟨a, rfl, r1.log⟩)
  case tolist a =>
    left
    simp only [exec1] at hs
    cases ht : tolist b w a with
    | error e => rw [ht] at hs; cases hs
    | ok p =>
      rw [ht] at hs
      cases hs
      unfold tolist at ht
      obtain ⟨w1, h1, h2⟩ := except_bind_ok ht
      have : w1.log = w.log := by
        unfold ensureCpu at h1
        split at h1
        · cases h1; rfl
        · split at h1
          · split at h1
            · cases h1; rfl
            · cases h1
          · cases h1
      split at h2
      · obtain ⟨l, _, h2⟩ := except_bind_ok h2
        cases h2
        exact this
      · cases h2
  case backward a =>
    left
    have hal := hin a (by simp [Call.arrays])
    obtain ⟨w1, order, e, r⟩ := backward_ok b.A hi.winv.wf hi.nn hi.gs hal ha
    simp only [exec1, e] at hs
    cases hs
    rw [r.step.rest]
  case grad a => left; simp only [exec1] at hs; cases hs; rfl
  case clearGrad a => left; simp only [exec1] at hs; cases hs; rfl
  case setGrad a k => left; simp only [exec1] at hs; cases hs; rfl
  case reset => right; left; simp only [exec1] at hs; cases hs; rfl

theorem Reachable.planned {b : Backend V} (hb : Faithful b) {w : World V} (h : Reachable b w) : ∀ p ∈ w.log, Planned V b.isGpu p := by
  induction h with
  | init => intro p hp; simp [Mat.init] at hp
  | @call w w' c h hl hn ih =>
    unfold next at hn
    cases hs : step b w c with
    | error e =>
      rw [hs] at hn
      simp only at hn
      split at hn
      · cases hn; exact ih
      · cases hn
    | ok p =>
      obtain ⟨o, w1⟩ := p
      rw [hs] at hn
      cases hn
      rcases hl with ⟨e, he⟩ | ha
      · rw [hs] at he; cases he
      · rcases step_log hb (h.inv hb) ha hs with e | e | ⟨a, _, e⟩ <;> rw [e]
        · exact ih
        · intro p hp; simp at hp
        · intro p hp
          rcases List.mem_append.1 hp with hp | hp
          · exact ih p hp
          · exact launchLog_planned _ _ _ p hp
  | @stopped w w' y h hy ha hs ih =>
    have hi := h.inv hb
    rw [(hs.bstep b.A hi.winv.wf hi.nn hi.gs hy ha).1.rest]
    exact ih

theorem ekeyE_plain {g : Graph V} {visit : Nat → List Nat → Except Err (EKey × List Nat)} :
    ∀ (e : DExpr) (ids : List Nat) (k : EKey) (ids' : List Nat), ekeyE g visit e ids = .ok (k, ids') → k.plain = true → funcRefs e = []
  | .const c, ids, k, ids', h, hp => rfl
  | .un op e, ids, k, ids', h, hp => by
    simp only [ekeyE] at h
    obtain ⟨⟨k1, i1⟩, h1, h2⟩ := except_bind_ok h
    cases h2
    simp only [funcRefs, ekeyE_plain e ids k1 _ h1 (by simpa only [EKey.plain] using hp)]
  | .bin op l r, ids, k, ids', h, hp => by
    simp only [ekeyE] at h
    obtain ⟨⟨k1, i1⟩, h1, h⟩ := except_bind_ok h
    obtain ⟨⟨k2, i2⟩, h2, h⟩ := except_bind_ok h
    cases h
    simp only [EKey.plain, Bool.and_eq_true] at hp
    simp only [funcRefs, ekeyE_plain l _ _ _ h1 hp.1, ekeyE_plain r _ _ _ h2 hp.2, List.append_nil]
  | .tern .., ids, k, ids', h, hp => by cases h; cases hp
  | .red op e rs, ids, k, ids', h, hp => by
    simp only [ekeyE] at h
    obtain ⟨⟨k1, i1⟩, h1, h2⟩ := except_bind_ok h
    cases h2
    simp only [funcRefs, ekeyE_plain e ids k1 _ h1 (by simpa only [EKey.plain] using hp)]
  | .func f idx, ids, k, ids', h, hp => by
    simp only [ekeyE] at h
    obtain ⟨⟨k1, i1⟩, h1, h2⟩ := except_bind_ok h
    cases h2
    cases hp
  | .buf n idx, ids, k, ids', h, hp => rfl

theorem EKey.plain_handled : ∀ {k : EKey}, k.plain = true → k.handled = true
  | .none, h => by cases h
  | .const _, _ => rfl
  | .un _ e, h => by simp only [EKey.plain] at h; simp only [EKey.handled, EKey.plain_handled h]
  | .bin _ l r, h => by simp only [EKey.plain, Bool.and_eq_true] at h; simp only [EKey.handled, EKey.plain_handled h.1, EKey.plain_handled h.2, Bool.and_self]
  | .red _ _ e, h => by simp only [EKey.plain] at h; simp only [EKey.handled, EKey.plain_handled h]
  | .fnc .., h => by cases h
  | .buf .., _ => rfl

theorem cacheKey_plain {g : Graph V} {t : Tbl} {fuel : Nat} {F : Func} {sch : Schedule} {k : Key} (h : cacheKey g t fuel F sch = .ok k) (hp : k.expr.plain = true) : funcRefs F.expr = [] := by
  simp only [cacheKey] at h
  obtain ⟨⟨e1, i1⟩, x1, h⟩ := except_bind_ok h
  cases h
  cases fuel with
  | zero => cases x1
  | succ fuel =>
    unfold ekey at x1
    exact ekeyE_plain _ _ _ _ x1 hp

end Whale
