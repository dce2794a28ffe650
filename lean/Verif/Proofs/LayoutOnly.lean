import Verif.Proofs.RelatedW
import Verif.Model.Text
/-
Compilation looks at the layout of arrays and at how they were made, not at their elements.
-/
namespace Whale
open Mat
variable {V1 V2 : Type} {R : V1 → V2 → Prop} {g1 : Graph V1} {g2 : Graph V2}

theorem outLoops_rel (h : GRel R g1 g2) (a : Nat) : Algo.outLoops g1 a = Algo.outLoops g2 a := by
  unfold Algo.outLoops; rw [h.shape]

theorem mkExpr_rel (h : GRel R g1 g2) (a : Nat) : Algo.mkExpr g1 a = Algo.mkExpr g2 a := by
  unfold Algo.mkExpr Algo.reduceExpr Algo.padExpr
  simp only [outLoops_rel h, h.ctx, h.shape, h.ndim]

theorem mkFunc_rel (h : GRel R g1 g2) (a : Nat) (e : DExpr) : Algo.mkFunc g1 a e = Algo.mkFunc g2 a e := by
  unfold Algo.mkFunc; rw [outLoops_rel h, h.shape, h.dtype]

theorem arrToFunc_rel (h : GRel R g1 g2) : ∀ n a m, Algo.arrToFunc g1 n a m = Algo.arrToFunc g2 n a m
  | 0, _, _ => rfl
  | n + 1, a, m => by
    unfold Algo.arrToFunc
    simp only [arrToFunc_rel h n, h.ctx, mkExpr_rel h, mkFunc_rel h]

theorem convert_rel (h : GRel R g1 g2) (a : Nat) : Algo.convert g1 a = Algo.convert g2 a := by
  unfold Algo.convert
  simp only [arrToFunc_rel h, base_rel h]

theorem ekeyE_rel (h : GRel R g1 g2) (visit : Nat → List Nat → Except Err (EKey × List Nat)) : ∀ e ids, ekeyE g1 visit e ids = ekeyE g2 visit e ids := by
  intro e
  induction e with
  | const => intro ids; rfl
  | un op e ih => intro ids; unfold ekeyE; rw [ih]
  | bin op l r ihl ihr => intro ids; unfold ekeyE; simp only [ihl, ihr]
  | tern => intro ids; rfl
  | red op e rs ih => intro ids; unfold ekeyE; rw [ih]
  | func => intro ids; rfl
  | buf => intro ids; unfold ekeyE; rw [h.shape, h.strides, h.offset, h.dtype]

theorem ekey_rel (h : GRel R g1 g2) (t : Tbl) : ∀ n e ids, ekey g1 t n e ids = ekey g2 t n e ids
  | 0, _, _ => rfl
  | n + 1, e, ids => by
    unfold ekey
    rw [ekeyE_rel h]
    congr 1
    funext f ids
    cases t f with
    | none => rfl
    | some F => exact ekey_rel h t n F.expr ids

theorem cacheKey_rel (h : GRel R g1 g2) (t : Tbl) (n : Nat) (F : Func) (sch : Schedule) : cacheKey g1 t n F sch = cacheKey g2 t n F sch := by
  unfold cacheKey; rw [ekey_rel h]

theorem genD_rel (h : GRel R g1 g2) (t : Tbl) (args : Codegen.Args) (dt : DType) : ∀ e n, Codegen.genD g1 t args dt e n = Codegen.genD g2 t args dt e n := by
  intro e
  induction e with
  | const => intro n; rfl
  | un op e ih => intro n; unfold Codegen.genD; simp only [ih]
  | bin op l r ihl ihr => intro n; unfold Codegen.genD; simp only [ihl, ihr]
  | tern op c l r ihl ihr => intro n; unfold Codegen.genD; simp only [ihl, ihr]
  | red op e rs ih => intro n; unfold Codegen.genD; simp only [ih]
  | func => intro n; rfl
  | buf => intro n; unfold Codegen.genD; rw [h.strides, h.offset]

theorem params_rel (h : GRel R g1 g2) (t : Tbl) (args : Codegen.Args) (dt : DType) : Codegen.params g1 t args dt = Codegen.params g2 t args dt := by
  unfold Codegen.params; rw [h.dtype]

theorem codegen_rel (h : GRel R g1 g2) (t : Tbl) (F : Func) (sch : Schedule) (args : Codegen.Args) (n : Nat) : Codegen.codegen g1 t F sch args n = Codegen.codegen g2 t F sch args n := by
  unfold Codegen.codegen; simp only [genD_rel h, params_rel h]

theorem renderD_rel (h : GRel R g1 g2) (L : Lang) (t : Tbl) (args : Codegen.Args) (dt : DType) : ∀ e w, Text.renderD L g1 t args dt e w = Text.renderD L g2 t args dt e w := by
  intro e
  induction e with
  | const => intro n; rfl
  | un op e ih => intro n; unfold Text.renderD; simp only [ih]
  | bin op l r ihl ihr => intro n; unfold Text.renderD; simp only [ihl, ihr]
  | tern op c l r ihl ihr => intro n; unfold Text.renderD; simp only [ihl, ihr]
  | red op e rs ih => intro n; unfold Text.renderD; simp only [ih]
  | func => intro n; rfl
  | buf => intro n; unfold Text.renderD; rw [h.strides, h.offset]

theorem textCodegen_rel (h : GRel R g1 g2) (L : Lang) (name : Str) (t : Tbl) (F : Func) (sch : Schedule) (args : Codegen.Args) (n : Nat) :
    Text.codegen L name g1 t F sch args n = Text.codegen L name g2 t F sch args n := by
  unfold Text.codegen; simp only [renderD_rel h, params_rel h]

theorem plan1_rel (h : GRel R g1 g2) (t : Tbl) (n : Nat) (p : Nat × Schedule) : plan1 g1 t n p = plan1 g2 t n p := by
  unfold plan1; simp only [cacheKey_rel h, codegen_rel h]

end Whale
