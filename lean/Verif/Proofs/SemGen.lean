import Verif.Proofs.SemStmt
import Verif.Proofs.Refs
import Verif.Proofs.Launch
/-
C48: generated kernels have the form that `SemStmt` is about: constants occur only as branches of conditionals.
-/
namespace Whale
open Algo Codegen
variable {V : Type}

/-- A constant. -/
def DExpr.bare : DExpr → Bool
  | .const _ => true
  | _ => false

/-- Constants occur only as branches of conditionals (or at the root). -/
def DExpr.tidy (P : Ops → Prop) : DExpr → Prop
  | .const c => c = 0
  | .un op e => P op ∧ e.bare = false ∧ e.tidy P
  | .bin op l r => P op ∧ (l.bare = false ∧ l.tidy P) ∧ r.bare = false ∧ r.tidy P
  | .tern _ _ t f => t.tidy P ∧ f.tidy P
  | .red _ e _ => P .Add ∧ e.bare = false ∧ e.tidy P
  | .func _ _ => True
  | .buf _ _ => True

/-- The same, and not a constant. -/
def DExpr.neat (P : Ops → Prop) (e : DExpr) : Prop := e.bare = false ∧ e.tidy P

def TblNeat (P : Ops → Prop) (t : Tbl) : Prop := ∀ i F, t i = some F → F.expr.neat P

theorem replaceD_tidy {P : Ops → Prop} {m : Repl} {e e' : DExpr} (h : replaceD m e = .ok e') (ht : e.tidy P) : e'.bare = e.bare ∧ e'.tidy P := by
  induction e generalizing e' with
  | const c => cases h; exact ⟨rfl, ht⟩
  | un op e ih =>
    obtain ⟨e1, h1, h⟩ := except_bind_ok h
    cases h
    exact ⟨rfl, ht.1, by rw [(ih h1 ht.2.2).1]; exact ht.2.1, (ih h1 ht.2.2).2⟩
  | bin op l r ihl ihr =>
    obtain ⟨e1, h1, h⟩ := except_bind_ok h
    obtain ⟨e2, h2, h⟩ := except_bind_ok h
    cases h
    have i1 := ihl h1 ht.2.1.2
    have i2 := ihr h2 ht.2.2.2
    exact ⟨rfl, ht.1, ⟨by rw [i1.1]; exact ht.2.1.1, i1.2⟩, by rw [i2.1]; exact ht.2.2.1, i2.2⟩
  | tern op c l r ihl ihr =>
    obtain ⟨e0, h0, h⟩ := except_bind_ok h
    obtain ⟨e1, h1, h⟩ := except_bind_ok h
    obtain ⟨e2, h2, h⟩ := except_bind_ok h
    cases h
    exact ⟨rfl, (ihl h1 ht.1).2, (ihr h2 ht.2).2⟩
  | red op e rs ih =>
    obtain ⟨e1, h1, h⟩ := except_bind_ok h
    cases h
    exact ⟨rfl, ht.1, by rw [(ih h1 ht.2.2).1]; exact ht.2.1, (ih h1 ht.2.2).2⟩
  | func f idx =>
    obtain ⟨e1, h1, h⟩ := except_bind_ok h
    cases h
    exact ⟨rfl, trivial⟩
  | buf f idx =>
    obtain ⟨e1, h1, h⟩ := except_bind_ok h
    cases h
    exact ⟨rfl, trivial⟩

theorem fuseE_neat {P : Ops → Prop} {visit : Nat → List IExpr → Tbl → Except Err (DExpr × Tbl)}
    (hv : ∀ f idx t e' t', visit f idx t = .ok (e', t') → TblNeat P t → TblNeat P t' ∧ e'.neat P)
    {e e' : DExpr} {t t' : Tbl} (h : fuseE visit e t = .ok (e', t')) (ht : TblNeat P t) (he : e.tidy P) : TblNeat P t' ∧ e'.tidy P ∧ (e.bare = false → e'.bare = false) := by
  induction e generalizing t e' t' with
  | const c => cases h; exact ⟨ht, he, id⟩
  | buf n idx => cases h; exact ⟨ht, he, id⟩
  | un op e ih =>
    obtain ⟨⟨e1, t1⟩, h1, h⟩ := except_bind_ok h
    cases h
    obtain ⟨a, b, c⟩ := ih h1 ht he.2.2
    exact ⟨a, ⟨he.1, c he.2.1, b⟩, fun _ => rfl⟩
  | red op e rs ih =>
    obtain ⟨⟨e1, t1⟩, h1, h⟩ := except_bind_ok h
    cases h
    obtain ⟨a, b, c⟩ := ih h1 ht he.2.2
    exact ⟨a, ⟨he.1, c he.2.1, b⟩, fun _ => rfl⟩
  | bin op l r ihl ihr =>
    obtain ⟨⟨e1, t1⟩, h1, h⟩ := except_bind_ok h
    obtain ⟨⟨e2, t2⟩, h2, h⟩ := except_bind_ok h
    cases h
    obtain ⟨a, b, c⟩ := ihl h1 ht he.2.1.2
    obtain ⟨a', b', c'⟩ := ihr h2 a he.2.2.2
    exact ⟨a', ⟨he.1, ⟨c he.2.1.1, b⟩, c' he.2.2.1, b'⟩, fun _ => rfl⟩
  | tern op c l r ihl ihr =>
    obtain ⟨⟨e1, t1⟩, h1, h⟩ := except_bind_ok h
    obtain ⟨⟨e2, t2⟩, h2, h⟩ := except_bind_ok h
    cases h
    obtain ⟨a, b, c⟩ := ihl h1 ht he.1
    obtain ⟨a', b', c'⟩ := ihr h2 a he.2
    exact ⟨a', ⟨b, b'⟩, fun _ => rfl⟩
  | func f idx =>
    obtain ⟨a, b⟩ := hv f idx t e' t' h ht
    exact ⟨a, b.2, fun _ => b.1⟩

theorem tryFuse_neat {P : Ops → Prop} {rc : RC} (fuel : Nat) : ∀ {e e' : DExpr} {t t' : Tbl}, tryFuse rc fuel e t = .ok (e', t') → TblNeat P t → e.tidy P →
    TblNeat P t' ∧ e'.tidy P ∧ (e.bare = false → e'.bare = false) := by
  induction fuel with
  | zero => intro e e' t t' h; cases h
  | succ fuel ih =>
    intro e e' t t' h ht he
    unfold tryFuse at h
    refine fuseE_neat ?_ h ht he
    intro f idx t e' t' h ht
    cases hF : t f with
    | none => simp [hF] at h
    | some F =>
      simp only [hF] at h
      have hN := ht f F hF
      split at h
      · cases h
      · split at h
        · obtain ⟨e1, h1, h⟩ := except_bind_ok h
          have hr := replaceD_tidy h1 hN.2
          obtain ⟨a, b, c⟩ := ih h ht hr.2
          exact ⟨a, c (hr.1.trans hN.1), b⟩
        · obtain ⟨⟨e1, t1⟩, h1, h⟩ := except_bind_ok h
          cases h
          obtain ⟨a, b, c⟩ := ih h1 ht hN.2
          refine ⟨fun i G hG => ?_, rfl, trivial⟩
          by_cases hif : i = f
          · subst hif
            rw [Tbl.set_same, Option.some.injEq] at hG
            subst hG
            exact ⟨c hN.1, b⟩
          · rw [Tbl.set_ne _ _ hif] at hG
            exact a i G hG

theorem mkExpr_neat {P : Ops → Prop} {g : Graph V} {a : Nat} {e : DExpr} (hP : ∀ op ∈ Sem.elementOps (g.ctx a), P op) (h : mkExpr g a = .ok e) : e.neat P := by
  unfold mkExpr at h
  simp only at h
  split at h
  case h_1 => cases h; exact ⟨rfl, trivial⟩
  case h_6 heq =>
    cases h
    rw [heq] at hP
    exact ⟨rfl, hP _ List.mem_cons_self, ⟨rfl, trivial⟩, rfl, trivial⟩
  case h_7 heq =>
    cases h
    rw [heq] at hP
    exact ⟨rfl, hP _ List.mem_cons_self, rfl, trivial⟩
  case h_8 heq =>
    obtain ⟨i, _, h⟩ := except_bind_ok h
    cases h
    rw [heq] at hP
    exact ⟨rfl, hP _ List.mem_cons_self, rfl, trivial⟩
  case h_9 => cases h; exact ⟨rfl, trivial⟩
  case h_10 =>
    obtain ⟨i, _, h⟩ := except_bind_ok h
    obtain ⟨j, _, h⟩ := except_bind_ok h
    cases h
    exact ⟨rfl, trivial, rfl⟩
  case h_11 =>
    obtain ⟨i, _, h⟩ := except_bind_ok h
    cases h
    exact ⟨rfl, trivial, rfl⟩
  all_goals
    obtain ⟨i, _, h⟩ := except_bind_ok h
    cases h
    exact ⟨rfl, trivial⟩

theorem convert_neat {g : Graph V} (h : WF g) {a : Nat} (ha : a < g.length) (hns : NoScalarReshape g a)
    {funcs : List Nat} {t : Tbl} (hconv : convert g a = .ok (funcs, t)) : TblNeat (Sem.Uses g a) t := by
  obtain ⟨t1, e1, f1, _, s1, r1⟩ := arrToFunc_ok h (a + 2) a Tbl.empty (by omega) ha hns (Fresh.empty g)
  obtain ⟨F, hF⟩ := Option.isSome_iff_exists.1 s1
  have hN : TblNeat (Sem.Uses g a) t1 := by
    intro i F hi
    obtain ⟨_, _, e, he, rfl⟩ := f1.entry i F hi
    exact mkExpr_neat (fun op hop => ⟨i, (r1 i (by rw [hi]; rfl)).resolve_left (by simp [Tbl.empty]), hop⟩) he
  unfold convert at hconv
  simp only [e1, bind, Except.bind, hF] at hconv
  cases h2 : countRefs t1 (a + 2) F.expr (fun _ => 0) with
  | error x => simp [h2] at hconv
  | ok rc =>
    simp only [h2] at hconv
    cases h3 : tryFuse rc (a + 2) F.expr t1 with
    | error x => simp [h3] at hconv
    | ok p =>
      obtain ⟨e', t2⟩ := p
      simp only [h3] at hconv
      obtain ⟨hr1, hr2, hr3⟩ := tryFuse_neat (a + 2) h3 hN (hN a F hF).2
      split at hconv
      · cases hconv
      · rename_i q hq
        simp only [pure, Except.pure, Except.ok.injEq, Prod.mk.injEq] at hconv
        obtain ⟨rfl, rfl⟩ := hconv
        intro i G hG
        by_cases hia : i = a
        · subst hia
          rw [Tbl.set_same, Option.some.injEq] at hG
          subst hG
          exact ⟨hr3 (hN i F hF).1, hr2⟩
        · rw [Tbl.set_ne _ _ hia] at hG
          exact hr1 i G hG

/-! ### statements -/

namespace Sem

/-- Variables and array elements. -/
def KD.atomic : KD → Prop
  | .var _ => True
  | .read _ _ => True
  | _ => False

def KD.shaped (P : Ops → Prop) : KD → Prop
  | .lit c => c = 0
  | .zero _ => True
  | .un op a => P op ∧ renderUn op = true ∧ KD.atomic a
  | .bin op a b => P op ∧ renderBin op = true ∧ KD.atomic a ∧ KD.atomic b
  | e => KD.atomic e

/-- The form of generated statements. -/
def Stmt.shaped (P : Ops → Prop) (dt : DType) : Stmt → Prop
  | .seq s t => Stmt.shaped P dt s ∧ Stmt.shaped P dt t
  | .initD dt' _ e => dt' = dt ∧ KD.shaped P e
  | .set _ e => KD.shaped P e
  | .store _ e => KD.shaped P e
  | .loop _ _ _ b => Stmt.shaped P dt b
  | .ite _ t f => Stmt.shaped P dt t ∧ Stmt.shaped P dt f
  | _ => True

theorem genI_shaped (P : Ops → Prop) (dt : DType) : ∀ {e : IExpr} {n n' : Nat} {s : Stmt} {k : KI}, genI e n = .ok (s, k, n') → Stmt.shaped P dt s
  | .index l, n, n', s, k, h => by cases h; exact trivial
  | .const c, n, n', s, k, h => by cases h; exact trivial
  | .bin op l r, n, n', s, k, h => by
    rw [genI] at h
    by_cases hop : renderBin op = false
    · rw [if_pos hop] at h; cases h
    · rw [if_neg hop] at h
      obtain ⟨⟨s1, a, n1⟩, h1, h⟩ := except_bind_ok h
      obtain ⟨⟨s2, b, n2⟩, h2, h⟩ := except_bind_ok h
      cases h
      exact ⟨genI_shaped P dt h1, genI_shaped P dt h2, trivial⟩

theorem genIs_shaped (P : Ops → Prop) (dt : DType) : ∀ {es : List IExpr} {n n' : Nat} {s : Stmt} {ks : List KI}, genIs es n = .ok (s, ks, n') → Stmt.shaped P dt s
  | [], n, n', s, ks, h => by cases h; exact trivial
  | e :: es, n, n', s, ks, h => by
    rw [genIs] at h
    obtain ⟨⟨s1, a, n1⟩, h1, h⟩ := except_bind_ok h
    obtain ⟨⟨s2, as, n2⟩, h2, h⟩ := except_bind_ok h
    cases h
    exact ⟨genI_shaped P dt h1, genIs_shaped P dt h2⟩

theorem redLoops_shaped {P : Ops → Prop} {dt : DType} {b : Stmt} (hb : Stmt.shaped P dt b) : ∀ (ls : List LoopIndex), Stmt.shaped P dt (redLoops ls b)
  | [] => hb
  | _ :: ls => redLoops_shaped hb ls

theorem shaped_atomic {P : Ops → Prop} {e : KD} (h : KD.atomic e) : KD.shaped P e := by cases e <;> first | exact h | exact h.elim

theorem genD_shaped {P : Ops → Prop} (g : Graph V) (tbl : Tbl) (args : Args) (dt : DType) : ∀ {e : DExpr} {n n' : Nat} {s : Stmt} {k : KD}, e.tidy P →
    genD g tbl args dt e n = .ok (s, k, n') → Stmt.shaped P dt s ∧ KD.shaped P k ∧ (e.bare = false → KD.atomic k)
  | .const c, n, n', s, k, ht, h => by cases h; exact ⟨trivial, ht, fun e => by cases e⟩
  | .un op e, n, n', s, k, ht, h => by
    rw [genD] at h
    by_cases hop : renderUn op = false
    · rw [if_pos hop] at h; cases h
    · rw [if_neg hop] at h
      obtain ⟨⟨s1, a, n1⟩, h1, h⟩ := except_bind_ok h
      cases h
      have f1 := genD_shaped g tbl args dt ht.2.2 h1
      exact ⟨⟨f1.1, rfl, ht.1, by simpa using hop, f1.2.2 ht.2.1⟩, trivial, fun _ => trivial⟩
  | .bin op l r, n, n', s, k, ht, h => by
    rw [genD] at h
    by_cases hop : renderBin op = false
    · rw [if_pos hop] at h; cases h
    · rw [if_neg hop] at h
      obtain ⟨⟨s1, a, n1⟩, h1, h⟩ := except_bind_ok h
      obtain ⟨⟨s2, b, n2⟩, h2, h⟩ := except_bind_ok h
      cases h
      have f1 := genD_shaped g tbl args dt ht.2.1.2 h1
      have f2 := genD_shaped g tbl args dt ht.2.2.2 h2
      exact ⟨⟨f1.1, f2.1, rfl, ht.1, by simpa using hop, f1.2.2 ht.2.1.1, f2.2.2 ht.2.2.1⟩, trivial, fun _ => trivial⟩
  | .tern op c t f, n, n', s, k, ht, h => by
    rw [genD] at h
    by_cases hop : op ≠ .Where
    · rw [if_pos hop] at h; cases h
    · rw [if_neg hop] at h
      obtain ⟨⟨s1, c1, n1⟩, h1, h⟩ := except_bind_ok h
      obtain ⟨⟨s2, a, n2⟩, h2, h⟩ := except_bind_ok h
      obtain ⟨⟨s3, b, n3⟩, h3, h⟩ := except_bind_ok h
      cases h
      have f2 := genD_shaped g tbl args dt ht.1 h2
      have f3 := genD_shaped g tbl args dt ht.2 h3
      exact ⟨⟨⟨rfl, trivial⟩, genI_shaped P dt h1, ⟨f2.1, f2.2.1⟩, f3.1, f3.2.1⟩, trivial, fun _ => trivial⟩
  | .red op e reduced, n, n', s, k, ht, h => by
    rw [genD] at h
    obtain ⟨⟨s1, a, n1⟩, h1, h⟩ := except_bind_ok h
    by_cases hop : op ≠ .Sum
    · simp only [if_pos hop] at h; cases h
    · simp only [if_neg hop] at h
      cases h
      have f1 := genD_shaped g tbl args dt ht.2.2 h1
      exact ⟨⟨⟨rfl, trivial⟩, redLoops_shaped (by exact ⟨f1.1, ht.1, rfl, trivial, f1.2.2 ht.2.1⟩) _⟩, trivial, fun _ => trivial⟩
  | .func f idx, n, n', s, k, ht, h => by
    rw [genD] at h
    obtain ⟨a, ha, h⟩ := except_bind_ok h
    obtain ⟨⟨s1, names, n1⟩, h1, h⟩ := except_bind_ok h
    simp only at h
    split at h
    · cases h
    · cases h
      exact ⟨genIs_shaped P dt h1, trivial, fun _ => trivial⟩
  | .buf b idx, n, n', s, k, ht, h => by
    rw [genD] at h
    obtain ⟨a, ha, h⟩ := except_bind_ok h
    obtain ⟨⟨s1, names, n1⟩, h1, h⟩ := except_bind_ok h
    cases h
    exact ⟨genIs_shaped P dt h1, trivial, fun _ => trivial⟩

theorem genLoops_shaped {P : Ops → Prop} {dt : DType} {b : Stmt} (hb : Stmt.shaped P dt b) : ∀ (ls : List LoopSched), Stmt.shaped P dt (genLoops ls b)
  | [] => hb
  | l :: ls => by
    unfold genLoops
    have := genLoops_shaped hb ls
    split
    · exact this
    · split
      · exact ⟨trivial, this⟩
      · exact ⟨trivial, this⟩
      · exact this

theorem codegen_shaped {P : Ops → Prop} {g : Graph V} {tbl : Tbl} {f : Func} {sch : Schedule} {args : Args} {n n' : Nat} {K : Kernel} (ht : f.expr.neat P)
    (h : codegen g tbl f sch args n = .ok (K, n')) : Stmt.shaped P f.outDtype K.body := by
  unfold codegen at h
  obtain ⟨⟨s, k, m⟩, hg, h⟩ := except_bind_ok h
  cases h
  have hd := genD_shaped g tbl args f.outDtype ht.2 hg
  have hsi : ∀ l, Stmt.shaped P f.outDtype (splitInits l) := by
    intro l; induction l with
    | nil => exact trivial
    | cons a l ih => exact ⟨trivial, ih⟩
  have hsg : ∀ l, Stmt.shaped P f.outDtype (splitGuards l) := by
    intro l; induction l with
    | nil => exact trivial
    | cons a l ih =>
      unfold splitGuards
      split
      · exact ⟨trivial, ih⟩
      · exact ih
  exact genLoops_shaped (by exact ⟨hsi _, hsg _, hd.1, hd.2.1⟩) _

/-! ### from form to `tidy` -/

/-- All literals and loop bounds. -/
def Stmt.lits (B : Int → Prop) : Stmt → Prop
  | .seq s t => Stmt.lits B s ∧ Stmt.lits B t
  | .initI _ e => KI.lits B e
  | .initD _ _ e => KD.lits e
  | .set _ e => KD.lits e
  | .store i e => KI.lits B i ∧ KD.lits e
  | .loop _ _ n b => B n ∧ Stmt.lits B b
  | .ite c t f => KI.lits B c ∧ Stmt.lits B t ∧ Stmt.lits B f
  | .guardRet c => KI.lits B c
  | _ => True
where
  KD.lits : KD → Prop
  | .un _ e => KD.lits e
  | .bin _ l r => KD.lits l ∧ KD.lits r
  | .read _ i => KI.lits B i
  | _ => True

theorem solid_of {B : Int → Prop} {e : KD} (h : KD.atomic e) (hl : Stmt.lits.KD.lits B e) : KD.solid B e := by
  cases e <;> first | exact hl | exact h.elim

theorem form_of {B : Int → Prop} {ops : Ops → Prop} {e : KD} (h : KD.shaped ops e) (hl : Stmt.lits.KD.lits B e) : KD.form B ops e := by
  cases e with
  | var x => exact trivial
  | lit c => exact h
  | zero b => exact trivial
  | un op a => exact ⟨h.1, h.2.1, solid_of h.2.2 hl⟩
  | bin op a b => exact ⟨h.1, h.2.1, solid_of h.2.2.1 hl.1, solid_of h.2.2.2 hl.2⟩
  | read a i => exact hl

theorem tidy_of {S : Setup V} : ∀ {s : Stmt}, Stmt.shaped S.ops S.dt s → Stmt.lits S.B s → (∀ x ∈ s.reads, x ≠ .out) → Stmt.tidy S s
  | .skip, _, _, _ => trivial
  | .seq _ _, h, hl, hr => ⟨tidy_of h.1 hl.1 (fun op h => hr op (List.mem_append_left _ h)), tidy_of h.2 hl.2 (fun op h => hr op (List.mem_append_right _ h))⟩
  | .initI _ _, _, hl, _ => hl
  | .initD _ _ _, h, hl, hr => ⟨h.1, form_of h.2 hl, hr⟩
  | .set _ _, h, hl, hr => ⟨form_of h hl, hr⟩
  | .store _ _, h, hl, hr => ⟨hl.1, form_of h hl.2, hr⟩
  | .loop _ _ _ _, h, hl, hr => ⟨hl.1, tidy_of h hl.2 hr⟩
  | .ite _ _ _, h, hl, hr => ⟨hl.1, tidy_of h.1 hl.2.1 (fun op h => hr op (List.mem_append_left _ h)), tidy_of h.2 hl.2.2 (fun op h => hr op (List.mem_append_right _ h))⟩
  | .guardRet _, _, hl, _ => hl
  | .gpuIdx .., _, _, _ => trivial

theorem lits_true : ∀ (s : Stmt), Stmt.lits (fun _ => True) s := by
  have hi : ∀ e : KI, KI.lits (fun _ => True) e := by
    intro e; induction e with
    | var x => trivial
    | lit c => trivial
    | bin op l r h1 h2 => exact ⟨h1, h2⟩
  have hd : ∀ e : KD, Stmt.lits.KD.lits (fun _ => True) e := by
    intro e; induction e with
    | un op e h => exact h
    | bin op l r h1 h2 => exact ⟨h1, h2⟩
    | read a i => exact hi i
    | _ => trivial
  intro s; induction s with
  | seq s t h1 h2 => exact ⟨h1, h2⟩
  | initI x e => exact hi e
  | initD dt x e => exact hd e
  | set x e => exact hd e
  | store i e => exact ⟨hi i, hd e⟩
  | loop m x n b h => exact ⟨trivial, h⟩
  | ite c t f h1 h2 => exact ⟨hi c, h1, h2⟩
  | guardRet c => exact hi c
  | _ => trivial

end Sem
end Whale
