import Verif.Spec.Unfinished
import Verif.Proofs.WriterC
/-
Proofs for C72: sessions with the code generator as an object that keeps its indentation level.
-/
namespace Whale
open Mat Hist LangSpec Text Syntax
variable {V : Type}

/-- Both raise the same exception, or both return, related results. -/
inductive RelU {α β : Type} (P : α → β → Prop) : Except SErr α → Except SErr β → Prop
  | err (e : SErr) : RelU P (.error e) (.error e)
  | ok {a : α} {b : β} : P a b → RelU P (.ok a) (.ok b)

theorem RelU.bind {α β γ δ : Type} {P : α → β → Prop} {Q : γ → δ → Prop} {x : Except SErr α} {y : Except SErr β} {f : α → Except SErr γ} {g : β → Except SErr δ} (h : RelU P x y)
    (hf : ∀ a b, P a b → RelU Q (f a) (g b)) : RelU Q (x >>= f) (y >>= g) := by
  cases h with
  | err e => exact .err e
  | ok h => exact hf _ _ h

theorem RelU.mono {α β : Type} {P Q : α → β → Prop} {x : Except SErr α} {y : Except SErr β} (h : RelU P x y) (hf : ∀ a b, P a b → Q a b) : RelU Q x y := by
  cases h with
  | err e => exact .err e
  | ok h => exact .ok (hf _ _ h)

theorem RelU.foldlM {α β γ : Type} {P : α → β → Prop} {f : α → γ → Except SErr α} {g : β → γ → Except SErr β} (hf : ∀ a b c, P a b → RelU P (f a c) (g b c)) :
    ∀ (l : List γ) {a : α} {b : β}, P a b → RelU P (l.foldlM f a) (l.foldlM g b)
  | [], _, _, h => .ok h
  | c :: l, a, b, h => by
    rw [List.foldlM_cons, List.foldlM_cons]
    exact (hf a b c h).bind fun a' b' h' => RelU.foldlM hf l h'

theorem RelU.refl {α : Type} (x : Except SErr α) : RelU (· = ·) x x := by
  cases x with
  | error e => exact .err e
  | ok a => exact .ok rfl

theorem RelU.left {α β γ : Type} {P : α → β → Prop} {Q : γ → β → Prop} {x : Except SErr α} {y : Except SErr β} (f : α → γ) (h : RelU P x y) (hf : ∀ a b, P a b → Q (f a) b) :
    RelU Q (x >>= fun a => pure (f a)) y := by
  cases h with
  | err e => exact .err e
  | ok h => exact .ok (hf _ _ h)

theorem RelU.same {α β : Type} {P : α → β → Prop} {z : Except SErr γ} {f : γ → Except SErr α} {g : γ → Except SErr β} (hf : ∀ c, RelU P (f c) (g c)) : RelU P (z >>= f) (z >>= g) :=
  (RelU.refl z).bind fun a b h => h ▸ hf a

/-- The same memory; in the caches, for the same keys, texts related by `T`. -/
structure AlikeBy (T : Str → Str → Prop) (s s' : SWorld V) : Prop where
  same : s.w = s'.w
  texts : List.Forall₂ (fun x y => x.1 = y.1 ∧ T x.2 y.2) s.texts s'.texts

theorem AlikeBy.refl {T : Str → Str → Prop} (hT : ∀ x, T x x) (s : SWorld V) : AlikeBy T s s := ⟨rfl, List.forall₂_same.2 fun _ _ => ⟨rfl, hT _⟩⟩

theorem alike_iff {L : Lang} {s s' : SWorld V} : Alike L s s' ↔ AlikeBy (fun a b => parse L a = parse L b) s s' := ⟨fun h => ⟨h.same, h.texts⟩, fun h => ⟨h.same, h.texts⟩⟩

theorem alikeBy_eq {s s' : SWorld V} : AlikeBy (· = ·) s s' ↔ s = s' := by
  constructor
  · rintro ⟨h1, h2⟩
    obtain ⟨w, ts⟩ := s
    obtain ⟨w', ts'⟩ := s'
    cases h1
    have : ts = ts' := by
      revert ts'
      induction ts with
      | nil => intro ts' h; cases h; rfl
      | cons x ts ih => intro ts' h; cases h with | cons hx h => rw [ih _ h, Prod.ext hx.1 hx.2]
    rw [this]
  · rintro rfl; exact .refl (fun _ => rfl) s

/-- The cache of sources plays no role in `invoke`, and of the source only the syntax tree does. -/
theorem invoke_by {R : Runtime V} {w : World V} {ts ts' : List (Key × Str)} {sch : Schedule} {text text' : Str} (h : parse R.L text = parse R.L text') (out : Nat) (ins : List Nat) :
    RelU (fun s s' => s.w = s'.w ∧ s.texts = ts ∧ s'.texts = ts') (Src.invoke R ⟨w, ts⟩ sch text out ins) (Src.invoke R ⟨w, ts'⟩ sch text' out ins) := by
  unfold Src.invoke
  rw [h]
  cases parse R.L text' with
  | none => exact .err _
  | some p =>
    cases hg : R.b.isGpu with
    | true =>
      simp only [if_true]
      refine .same fun w1 => ?_
      cases Kern.launchOK sch with
      | false => exact .err _
      | true =>
        cases w1.dev out with
        | none => exact .err _
        | some o =>
          cases ins.mapM w1.dev with
          | none => exact .err _
          | some is =>
            exact RelU.same (z := Src.exec R p w1.tick sch o is) fun l => .ok ⟨rfl, rfl, rfl⟩
    | false =>
      simp only [Bool.false_eq_true, if_false]
      generalize (out :: ins).foldl (fillCpu R.b.A) w = w1
      cases cpuBuf w1 out with
      | none => exact .err _
      | some o =>
        cases ins.mapM (cpuBuf w1) with
        | none => exact .err _
        | some is => exact RelU.same (z := Src.exec R p w1.tick sch o is) fun l => .ok ⟨rfl, rfl, rfl⟩

theorem lookup_by {T : Str → Str → Prop} {ts ts' : List (Key × Str)} (h : List.Forall₂ (fun x y => x.1 = y.1 ∧ T x.2 y.2) ts ts') (key : Key) :
    (ts.lookup key = none ∧ ts'.lookup key = none) ∨ ∃ a b, ts.lookup key = some a ∧ ts'.lookup key = some b ∧ T a b := by
  induction h with
  | nil => exact .inl ⟨rfl, rfl⟩
  | @cons x y _ _ hxy _ ih =>
    obtain ⟨k, a⟩ := x
    obtain ⟨k', b⟩ := y
    obtain ⟨rfl, hab⟩ := hxy
    simp only [List.lookup_cons]
    cases hk : key == k with
    | true => exact .inr ⟨a, b, by simp, by simp, hab⟩
    | false => simpa using ih

theorem shift_zero (s : Str) : Gen.shift 0 s = s := rfl

section
variable {R : Runtime V} {T : Str → Str → Prop} {i : Nat}

/-- The relation between a state with an indented generator and one with a fresh generator. -/
def Unf.Rel (T : Str → Str → Prop) (i : Nat) (x : GWorld V) (s : SWorld V) : Prop := AlikeBy T x.s s ∧ x.ind = i

theorem runFunc_by (hT : ∀ a b, T a b → parse R.L a = parse R.L b) (hsh : ∀ ls, T (join ['\n'] (ls.map (Gen.shift i))) (join ['\n'] ls)) {t : Tbl} {fuel : Nat} {x : GWorld V} {s : SWorld V}
    (h : Unf.Rel T i x s) (p : Nat × Schedule) : RelU (Unf.Rel T i) (Unf.runFunc R t fuel x p) (Src.runFunc R t fuel s p) := by
  obtain ⟨⟨w, ts⟩, j⟩ := x
  obtain ⟨w', ts'⟩ := s
  obtain ⟨⟨hw, hts⟩, hj⟩ := h
  cases hw
  cases hj
  unfold Unf.runFunc Src.runFunc
  cases t p.1 with
  | none => exact .err _
  | some F =>
    refine .same fun outs => .same fun key => ?_
    change List.Forall₂ _ ts ts' at hts
    rcases lookup_by hts key with ⟨h1, h2⟩ | ⟨a, b, h1, h2, hab⟩
    · simp only [h1, h2]
      have hc := Gen.codegen_at R.L (Text.kernName (R.digest key)) w.g t F p.2 ⟨(Algo.args F.expr).1, (Algo.args F.expr).2⟩ [] j w.tmp
      cases hg : Text.codegen R.L (Text.kernName (R.digest key)) w.g t F p.2 ⟨(Algo.args F.expr).1, (Algo.args F.expr).2⟩ w.tmp with
      | error e =>
        rw [hg] at hc
        cases hr : (Gen.codegen R.L (Text.kernName (R.digest key)) w.g t F p.2 ⟨(Algo.args F.expr).1, (Algo.args F.expr).2⟩).run ⟨[], j, w.tmp⟩ with
        | mk r o => rw [hr] at hc; cases hc; exact .err _
      | ok q =>
        obtain ⟨text, n⟩ := q
        rw [hg] at hc
        obtain ⟨ls, rfl, _, hr⟩ := hc
        rw [hr]
        have hh := hsh ls
        refine RelU.left (fun s => (⟨s, j⟩ : GWorld V)) (invoke_by (w := { w with tmp := n }) (ts := ts ++ [(key, join ['\n'] (ls.map (Gen.shift j)))]) (ts' := ts' ++ [(key, join ['\n'] ls)]) (hT _ _ hh) F.outBuffer _) ?_
        rintro s1 s2 ⟨e1, e2, e3⟩
        refine ⟨⟨e1, ?_⟩, rfl⟩
        show List.Forall₂ _ s1.texts s2.texts
        rw [e2, e3]
        exact List.rel_append hts (.cons ⟨rfl, hh⟩ .nil)
    · simp only [h1, h2]
      refine RelU.left (fun s => (⟨s, j⟩ : GWorld V)) (invoke_by (R := R) (w := w) (ts := ts) (ts' := ts') (sch := p.2) (hT _ _ hab) F.outBuffer ((Algo.args F.expr).1 ++ outs)) ?_
      rintro s1 s2 ⟨e1, e2, e3⟩
      refine ⟨⟨e1, ?_⟩, rfl⟩
      show List.Forall₂ _ s1.texts s2.texts
      rw [e2, e3]; exact hts

theorem materializeF_by (hT : ∀ a b, T a b → parse R.L a = parse R.L b) (hsh : ∀ ls, T (join ['\n'] (ls.map (Gen.shift i))) (join ['\n'] ls)) : ∀ (fuel : Nat) {x : GWorld V} {s : SWorld V}
    (_ : Unf.Rel T i x s) (a : Nat), RelU (Unf.Rel T i) (Unf.materializeF R fuel x a) (Src.materializeF R fuel s a)
  | 0, _, _, _, _ => .err _
  | fuel + 1, x, s, h, a => by
    have hg : x.s.w = s.w := h.1.same
    unfold Unf.materializeF Src.materializeF
    rw [hg]
    split
    · exact .ok h
    · split
      · cases (s.w.g.ctx a).inputs with
        | nil => exact .err _
        | cons y l => exact materializeF_by hT hsh fuel h _
      · refine .same fun q => .same fun sc => ?_
        exact RelU.foldlM (fun a b c hab => runFunc_by hT hsh hab c) _ ⟨⟨rfl, h.1.texts⟩, h.2⟩

theorem other_by {s s' : SWorld V} (h : AlikeBy T s s') {c : Call V} (hc : ∀ a, c ≠ .materialize a) :
    RelU (fun p q => p.1 = q.1 ∧ AlikeBy T p.2 q.2) (Src.exec1 R s c) (Src.exec1 R s' c) := by
  obtain ⟨w, ts⟩ := s
  obtain ⟨w', ts'⟩ := s'
  obtain ⟨hw, hts⟩ := h
  cases hw
  by_cases hr : c = .reset
  · subst hr; exact .ok ⟨rfl, rfl, .nil⟩
  · have hs : ∀ ts, Src.exec1 R ⟨w, ts⟩ c = (Src.lift (Hist.exec1 R.b w c)).map fun p => (p.1, ⟨p.2, ts⟩) := by
      intro ts
      cases c <;> first | rfl | exact absurd rfl (hc _) | exact absurd rfl hr
    rw [hs, hs]
    cases Hist.exec1 R.b w c with
    | error e => exact .err _
    | ok p => exact .ok ⟨rfl, rfl, hts⟩

theorem step_by (hT : ∀ a b, T a b → parse R.L a = parse R.L b) (hsh : ∀ ls, T (join ['\n'] (ls.map (Gen.shift i))) (join ['\n'] ls)) {x : GWorld V} {s : SWorld V} (h : Unf.Rel T i x s)
    (c : Call V) : RelU (fun p q => p.1 = q.1 ∧ Unf.Rel T i p.2 q.2) (Unf.step R x c) (Src.step R s c) := by
  unfold Unf.step Src.step
  rw [h.1.same]
  split
  swap
  · exact .err _
  by_cases hm : ∃ a, c = .materialize a
  · obtain ⟨a, rfl⟩ := hm
    have := materializeF_by hT hsh (a + 1) h a
    show RelU _ ((Unf.materializeF R (a + 1) x a).map fun x => (Out.unit, x)) ((Src.materializeF R (a + 1) s a).map fun s => (Out.unit, s))
    generalize Unf.materializeF R (a + 1) x a = u at this ⊢
    generalize Src.materializeF R (a + 1) s a = v at this ⊢
    cases this with
    | err e => exact .err e
    | ok h => exact .ok ⟨rfl, h⟩
  · have hm : ∀ a, c ≠ .materialize a := fun a h => hm ⟨a, h⟩
    have : Unf.exec1 R x c = (Src.exec1 R x.s c).map fun p => (p.1, { x with s := p.2 }) := by
      cases c <;> first | rfl | exact absurd rfl (hm _)
    rw [this]
    have := other_by (R := R) h.1 hm
    generalize Src.exec1 R x.s c = u at this ⊢
    generalize Src.exec1 R s c = v at this ⊢
    cases this with
    | err e => exact .err e
    | ok h1 => exact .ok ⟨h1.1, h1.2, h.2⟩

end

/-- With a fresh generator nothing changes. -/
theorem step_fresh (R : Runtime V) (s : SWorld V) (c : Call V) : Unf.step R ⟨s, 0⟩ c = (Src.step R s c).map fun p => (p.1, ⟨p.2, 0⟩) := by
  have h := step_by (R := R) (T := (· = ·)) (i := 0) (fun a b h => by rw [h]) (fun ls => by rw [List.map_congr_left (g := id) fun a _ => shift_zero a, List.map_id])
    (x := ⟨s, 0⟩) (s := s) ⟨.refl (fun _ => rfl) s, rfl⟩ c
  generalize Unf.step R ⟨s, 0⟩ c = u at h ⊢
  generalize Src.step R s c = v at h ⊢
  cases h with
  | err e => rfl
  | @ok a b h =>
    obtain ⟨o, ⟨s1, j⟩⟩ := a
    obtain ⟨o', s2⟩ := b
    obtain ⟨rfl, h1, rfl⟩ := h
    have h1 := alikeBy_eq.1 h1
    dsimp only at h1
    subst h1
    rfl

theorem materialize_fresh (R : Runtime V) (fuel : Nat) (s : SWorld V) (a : Nat) : Unf.materializeF R fuel ⟨s, 0⟩ a = (Src.materializeF R fuel s a).map fun p => ⟨p, 0⟩ := by
  have h := materializeF_by (R := R) (T := (· = ·)) (i := 0) (fun a b h => by rw [h]) (fun ls => by rw [List.map_congr_left (g := id) fun a _ => shift_zero a, List.map_id]) fuel
    (x := ⟨s, 0⟩) (s := s) ⟨.refl (fun _ => rfl) s, rfl⟩ a
  generalize Unf.materializeF R fuel ⟨s, 0⟩ a = u at h ⊢
  generalize Src.materializeF R fuel s a = v at h ⊢
  cases h with
  | err e => rfl
  | @ok a b h =>
    obtain ⟨s1, j⟩ := a
    obtain ⟨h1, rfl⟩ := h
    have h1 := alikeBy_eq.1 h1
    dsimp only at h1
    subst h1
    rfl

theorem Alike.refl (L : Lang) (s : SWorld V) : Alike L s s := alike_iff.2 (AlikeBy.refl (fun _ => by rfl) s)
theorem Alike.symm {L : Lang} {s s' : SWorld V} (h : Alike L s s') : Alike L s' s :=
  ⟨h.same.symm, (List.Forall₂.flip h.texts).imp fun _ _ h => ⟨h.1.symm, h.2.symm⟩⟩

theorem forall₂_trans {α : Type} {P : α → α → Prop} (ht : ∀ a b c, P a b → P b c → P a c) : ∀ {l l' l'' : List α}, List.Forall₂ P l l' → List.Forall₂ P l' l'' → List.Forall₂ P l l''
  | [], _, _, .nil, .nil => .nil
  | _ :: _, _, _, .cons h1 h2, .cons h3 h4 => .cons (ht _ _ _ h1 h3) (forall₂_trans ht h2 h4)

theorem Alike.trans {L : Lang} {s s' s'' : SWorld V} (h : Alike L s s') (h' : Alike L s' s'') : Alike L s s'' :=
  ⟨h.same.trans h'.same, forall₂_trans (fun _ _ _ h1 h2 => ⟨h1.1.trans h2.1, h1.2.trans h2.2⟩) h.texts h'.texts⟩

/-- In C and CUDA indentation is white space. -/
theorem step_alike {R : Runtime V} (hL : R.L ≠ .python) {x y : GWorld V} (h : Alike R.L x.s y.s) (c : Call V) : SameStep R.L (Unf.step R x c) (Unf.step R y c) := by
  have h1 := step_by (R := R) (T := fun a b => parse R.L a = parse R.L b) (i := x.ind) (fun _ _ h => h) (fun ls => parse_shift hL _ ls) (x := x) (s := y.s) ⟨alike_iff.1 h, rfl⟩ c
  have h2 := step_by (R := R) (T := fun a b => parse R.L a = parse R.L b) (i := y.ind) (fun _ _ h => h) (fun ls => parse_shift hL _ ls) (x := y) (s := y.s)
    ⟨alike_iff.1 (.refl _ _), rfl⟩ c
  generalize Unf.step R x c = u at h1 ⊢
  generalize Unf.step R y c = v at h2 ⊢
  generalize Src.step R y.s c = z at h1 h2
  cases h1 with
  | err e => cases h2; rfl
  | @ok a b h1 =>
    cases h2 with
    | @ok a' _ h2 =>
      exact ⟨h1.1.trans h2.1.symm, (alike_iff.2 h1.2.1).trans (alike_iff.2 h2.2.1).symm⟩

end Whale
