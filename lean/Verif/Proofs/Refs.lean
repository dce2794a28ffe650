import Verif.Proofs.FuseInv
/-
Every array a kernel refers to was used to build the array the kernel computes.
-/
namespace Whale
open Algo
variable {V : Type}

def refs (e : DExpr) : List Nat := funcRefs e ++ bufRefs e

theorem mem_refs {e : DExpr} {x : Nat} : x ∈ refs e ↔ x ∈ funcRefs e ∨ x ∈ bufRefs e := List.mem_append

/-- All references of all entries are arrays the entry's array was built from. -/
def RefsReach (g : Graph V) (t : Tbl) : Prop := ∀ i F, t i = some F → ∀ x ∈ refs F.expr, Reach g i x

theorem replaceD_refs {m : Repl} {e e' : DExpr} (h : replaceD m e = .ok e') : funcRefs e' = funcRefs e ∧ bufRefs e' = bufRefs e := by
  induction e generalizing e' with
  | const c => cases h; exact ⟨rfl, rfl⟩
  | un op e ih =>
    simp only [replaceD, bind, Except.bind] at h
    cases h1 : replaceD m e <;> simp only [h1, pure, Except.pure, reduceCtorEq, Except.ok.injEq] at h
    subst h; have := ih h1; exact this
  | red op e rs ih =>
    simp only [replaceD, bind, Except.bind] at h
    cases h1 : replaceD m e <;> simp only [h1, pure, Except.pure, reduceCtorEq, Except.ok.injEq] at h
    subst h; have := ih h1; exact this
  | bin op l r ihl ihr =>
    simp only [replaceD, bind, Except.bind] at h
    cases h1 : replaceD m l <;> simp only [h1, reduceCtorEq] at h
    cases h2 : replaceD m r <;> simp only [h2, pure, Except.pure, reduceCtorEq, Except.ok.injEq] at h
    subst h
    simp only [funcRefs, bufRefs, (ihl h1).1, (ihl h1).2, (ihr h2).1, (ihr h2).2, and_self]
  | tern op c l r ihl ihr =>
    simp only [replaceD, bind, Except.bind] at h
    cases h0 : replaceI m c <;> simp only [h0, reduceCtorEq] at h
    cases h1 : replaceD m l <;> simp only [h1, reduceCtorEq] at h
    cases h2 : replaceD m r <;> simp only [h2, pure, Except.pure, reduceCtorEq, Except.ok.injEq] at h
    subst h
    simp only [funcRefs, bufRefs, (ihl h1).1, (ihl h1).2, (ihr h2).1, (ihr h2).2, and_self]
  | func f idx =>
    simp only [replaceD, bind, Except.bind] at h
    cases h1 : idx.mapM (replaceI m) <;> simp only [h1, pure, Except.pure, reduceCtorEq, Except.ok.injEq] at h
    subst h; exact ⟨rfl, rfl⟩
  | buf f idx =>
    simp only [replaceD, bind, Except.bind] at h
    cases h1 : idx.mapM (replaceI m) <;> simp only [h1, pure, Except.pure, reduceCtorEq, Except.ok.injEq] at h
    subst h; exact ⟨rfl, rfl⟩

theorem fuseE_refs {g : Graph V} {visit : Nat → List IExpr → Tbl → Except Err (DExpr × Tbl)}
    (hv : ∀ f idx t e' t', visit f idx t = .ok (e', t') → RefsReach g t → RefsReach g t' ∧ ∀ x ∈ refs e', Reach g f x)
    {e e' : DExpr} {t t' : Tbl} (h : fuseE visit e t = .ok (e', t')) (ht : RefsReach g t) :
    RefsReach g t' ∧ ∀ x ∈ refs e', ∃ f ∈ refs e, Reach g f x := by
  induction e generalizing t e' t' with
  | const c => cases h; exact ⟨ht, fun x hx => ⟨x, hx, .refl⟩⟩
  | buf n idx => cases h; exact ⟨ht, fun x hx => ⟨x, hx, .refl⟩⟩
  | un op e ih =>
    simp only [fuseE, bind, Except.bind] at h
    cases h1 : fuseE visit e t with
    | error x => simp [h1] at h
    | ok p =>
      obtain ⟨e1, t1⟩ := p
      simp only [h1, pure, Except.pure, Except.ok.injEq, Prod.mk.injEq] at h
      obtain ⟨rfl, rfl⟩ := h
      have := ih h1 ht; exact this
  | red op e rs ih =>
    simp only [fuseE, bind, Except.bind] at h
    cases h1 : fuseE visit e t with
    | error x => simp [h1] at h
    | ok p =>
      obtain ⟨e1, t1⟩ := p
      simp only [h1, pure, Except.pure, Except.ok.injEq, Prod.mk.injEq] at h
      obtain ⟨rfl, rfl⟩ := h
      have := ih h1 ht; exact this
  | bin op l r ihl ihr =>
    simp only [fuseE, bind, Except.bind] at h
    cases h1 : fuseE visit l t with
    | error x => simp [h1] at h
    | ok p =>
      obtain ⟨e1, t1⟩ := p
      simp only [h1] at h
      cases h2 : fuseE visit r t1 with
      | error x => simp [h2] at h
      | ok p =>
        obtain ⟨e2, t2⟩ := p
        simp only [h2, pure, Except.pure, Except.ok.injEq, Prod.mk.injEq] at h
        obtain ⟨rfl, rfl⟩ := h
        obtain ⟨i1, f1⟩ := ihl h1 ht
        obtain ⟨i2, f2⟩ := ihr h2 i1
        refine ⟨i2, fun x hx => ?_⟩
        simp only [mem_refs, funcRefs, bufRefs, List.mem_append] at hx ⊢
        rcases hx with (hx | hx) | (hx | hx)
        · obtain ⟨f, hf, hr⟩ := f1 x (mem_refs.2 (.inl hx)); exact ⟨f, (mem_refs.1 hf).imp Or.inl Or.inl, hr⟩
        · obtain ⟨f, hf, hr⟩ := f2 x (mem_refs.2 (.inl hx)); exact ⟨f, (mem_refs.1 hf).imp Or.inr Or.inr, hr⟩
        · obtain ⟨f, hf, hr⟩ := f1 x (mem_refs.2 (.inr hx)); exact ⟨f, (mem_refs.1 hf).imp Or.inl Or.inl, hr⟩
        · obtain ⟨f, hf, hr⟩ := f2 x (mem_refs.2 (.inr hx)); exact ⟨f, (mem_refs.1 hf).imp Or.inr Or.inr, hr⟩
  | tern op c l r ihl ihr =>
    simp only [fuseE, bind, Except.bind] at h
    cases h1 : fuseE visit l t with
    | error x => simp [h1] at h
    | ok p =>
      obtain ⟨e1, t1⟩ := p
      simp only [h1] at h
      cases h2 : fuseE visit r t1 with
      | error x => simp [h2] at h
      | ok p =>
        obtain ⟨e2, t2⟩ := p
        simp only [h2, pure, Except.pure, Except.ok.injEq, Prod.mk.injEq] at h
        obtain ⟨rfl, rfl⟩ := h
        obtain ⟨i1, f1⟩ := ihl h1 ht
        obtain ⟨i2, f2⟩ := ihr h2 i1
        refine ⟨i2, fun x hx => ?_⟩
        simp only [mem_refs, funcRefs, bufRefs, List.mem_append] at hx ⊢
        rcases hx with (hx | hx) | (hx | hx)
        · obtain ⟨f, hf, hr⟩ := f1 x (mem_refs.2 (.inl hx)); exact ⟨f, (mem_refs.1 hf).imp Or.inl Or.inl, hr⟩
        · obtain ⟨f, hf, hr⟩ := f2 x (mem_refs.2 (.inl hx)); exact ⟨f, (mem_refs.1 hf).imp Or.inr Or.inr, hr⟩
        · obtain ⟨f, hf, hr⟩ := f1 x (mem_refs.2 (.inr hx)); exact ⟨f, (mem_refs.1 hf).imp Or.inl Or.inl, hr⟩
        · obtain ⟨f, hf, hr⟩ := f2 x (mem_refs.2 (.inr hx)); exact ⟨f, (mem_refs.1 hf).imp Or.inr Or.inr, hr⟩
  | func f idx =>
    obtain ⟨i1, f1⟩ := hv f idx t e' t' h ht
    exact ⟨i1, fun x hx => ⟨f, by simp [refs, funcRefs], f1 x hx⟩⟩

theorem tryFuse_refs {g : Graph V} {rc : RC} (fuel : Nat) : ∀ {e e' : DExpr} {t t' : Tbl},
    tryFuse rc fuel e t = .ok (e', t') → RefsReach g t → RefsReach g t' ∧ ∀ x ∈ refs e', ∃ f ∈ refs e, Reach g f x := by
  induction fuel with
  | zero => intro e e' t t' h; cases h
  | succ fuel ih =>
    intro e e' t t' h ht
    unfold tryFuse at h
    refine fuseE_refs ?_ h ht
    intro f idx t e' t' h ht
    cases hF : t f with
    | none => simp [hF] at h
    | some F =>
      simp only [hF] at h
      split at h
      · cases h
      · split at h
        · simp only [bind, Except.bind] at h
          cases h1 : replaceD (F.outLoops.zip idx) F.expr with
          | error x => simp [h1] at h
          | ok e1 =>
            simp only [h1] at h
            obtain ⟨i1, f1⟩ := ih h ht
            refine ⟨i1, fun x hx => ?_⟩
            obtain ⟨y, hy, hr⟩ := f1 x hx
            have := replaceD_refs h1
            exact (ht f F hF y (by simpa only [refs, this.1, this.2] using hy)).trans hr
        · simp only [bind, Except.bind] at h
          cases h1 : tryFuse rc fuel F.expr t with
          | error x => simp [h1] at h
          | ok p =>
            obtain ⟨e1, t1⟩ := p
            simp only [h1, pure, Except.pure, Except.ok.injEq, Prod.mk.injEq] at h
            obtain ⟨rfl, rfl⟩ := h
            obtain ⟨i1, f1⟩ := ih h1 ht
            refine ⟨fun i G hG x hx => ?_, fun x hx => ?_⟩
            · by_cases hif : i = f
              · subst hif
                rw [Tbl.set_same, Option.some.injEq] at hG
                subst hG
                obtain ⟨y, hy, hr⟩ := f1 x hx
                exact (ht i F hF y hy).trans hr
              · rw [Tbl.set_ne _ _ hif] at hG
                exact i1 i G hG x hx
            · simp only [refs, funcRefs, bufRefs, List.append_nil, List.mem_singleton] at hx
              subst hx; exact .refl

theorem mkExpr_refs {g : Graph V} {a : Nat} {e : DExpr} (h : mkExpr g a = .ok e) : ∀ x ∈ refs e, Reach g a x := by
  have key : ∀ x ∈ refs e, x = a ∨ x ∈ (g.ctx a).inputs := by
    unfold mkExpr at h
    cases hc : g.ctx a <;> simp only [hc, Ctx.inputs] at h ⊢
    case const => cases h; simp [refs, funcRefs, bufRefs]
    case unary => cases h; simp [refs, funcRefs, bufRefs]
    case binary => cases h; simp [refs, funcRefs, bufRefs]
    case contiguous => cases h; simp [refs, funcRefs, bufRefs]
    case sum =>
      simp only [reduceExpr, bind, Except.bind] at h
      split at h
      · cases h
      · cases h; simp [refs, funcRefs, bufRefs]
    case pad =>
      simp only [padExpr, bind, Except.bind] at h
      split at h
      · cases h
      · split at h
        · cases h
        · cases h; simp [refs, funcRefs, bufRefs]
    case dilate =>
      simp only [dilateExpr, bind, Except.bind] at h
      split at h
      · cases h
      · cases h; simp [refs, funcRefs, bufRefs]
    all_goals
      simp only [bind, Except.bind] at h
      split at h
      · cases h
      · cases h; simp [refs, funcRefs, bufRefs]
  intro x hx
  rcases key x hx with rfl | hi
  · exact .refl
  · exact .step .refl hi

theorem Fresh.refsReach {g : Graph V} {t : Tbl} (ht : Fresh g t) : RefsReach g t := by
  intro i F hi
  obtain ⟨_, _, e, he, rfl⟩ := ht.entry i F hi
  exact mkExpr_refs he

/-- Everything a kernel refers to was used to build its array. -/
theorem convert_refs {g : Graph V} (h : WF g) {a : Nat} (ha : a < g.length) (hns : NoScalarReshape g a)
    {funcs : List Nat} {t : Tbl} (hconv : convert g a = .ok (funcs, t)) : RefsReach g t := by
  obtain ⟨t1, e1, f1, _, s1, r1⟩ := arrToFunc_ok h (a + 2) a Tbl.empty (by omega) ha hns (Fresh.empty g)
  obtain ⟨F, hF⟩ := Option.isSome_iff_exists.1 s1
  unfold convert at hconv
  simp only [e1, bind, Except.bind, hF] at hconv
  cases h2 : countRefs t1 (a + 2) F.expr (fun _ => 0) with
  | error x => simp [h2] at hconv
  | ok rc =>
    simp only [h2] at hconv
    cases h3 : tryFuse rc (a + 2) F.expr t1 with
    | error x => simp [h3] at hconv
    | ok p =>
      obtain ⟨e', t2⟩ := p
      simp only [h3] at hconv
      have hr := tryFuse_refs (g := g) (a + 2) h3 f1.refsReach
      split at hconv
      · cases hconv
      · rename_i q hq
        simp only [pure, Except.pure, Except.ok.injEq, Prod.mk.injEq] at hconv
        obtain ⟨rfl, rfl⟩ := hconv
        intro i G hG x hx
        by_cases hia : i = a
        · subst hia
          rw [Tbl.set_same, Option.some.injEq] at hG
          subst hG
          obtain ⟨y, hy, hxy⟩ := hr.2 x hx
          exact (f1.refsReach i F hF y hy).trans hxy
        · rw [Tbl.set_ne _ _ hia] at hG
          exact hr.1 i G hG x hx

end Whale
