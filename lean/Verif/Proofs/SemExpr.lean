import Verif.Spec.Semantics
import Verif.Spec.Scope
import Verif.Spec.Launch
import Verif.Proofs.Names
import Verif.Props.Scope
/-
C48: evaluating the text of index and value expressions.
-/
namespace Whale.Sem
open Whale Syntax Kern
variable {V : Type}

/-- A computation that ends in a number fault (only if `F`), or in a result with property `P`. -/
def Out {α : Type} (F : Prop) (x : Except Fault α) (P : α → Prop) : Prop := (x = .error .arith ∧ F) ∨ ∃ a, x = .ok a ∧ P a

theorem Out.ok {α : Type} {F : Prop} {a : α} {P : α → Prop} (h : P a) : Out F (.ok a) P := .inr ⟨a, rfl, h⟩

theorem Out.pure {α : Type} {F : Prop} {a : α} {P : α → Prop} (h : P a) : Out F (Pure.pure a) P := .inr ⟨a, rfl, h⟩

theorem ok_bind {α β : Type} (a : α) (f : α → Except Fault β) : (Except.ok a >>= f) = f a := rfl

theorem Out.bind {α β : Type} {F : Prop} {x : Except Fault α} {P : α → Prop} {f : α → Except Fault β} {Q : β → Prop} (h : Out F x P) (hf : ∀ a, P a → Out F (f a) Q) :
    Out F (x >>= f) Q := by
  rcases h with ⟨rfl, h⟩ | ⟨a, rfl, h⟩
  · exact .inl ⟨rfl, h⟩
  · exact hf a h

theorem Out.mono {α : Type} {F : Prop} {x : Except Fault α} {P Q : α → Prop} (h : Out F x P) (hf : ∀ a, P a → Q a) : Out F x Q := by
  rcases h with h | ⟨a, rfl, h⟩
  · exact .inl h
  · exact .inr ⟨a, rfl, hf a h⟩

theorem out_lift {F : Prop} {o : Option V} {P : V → Prop} (h0 : o = none → F) (h1 : ∀ v, o = some v → P v) : Out F (lift o) P := by
  cases o with
  | none => exact .inl ⟨rfl, h0 rfl⟩
  | some v => exact .inr ⟨v, rfl, h1 v rfl⟩

/-- What the simulation is about: a program context, the model's machine, the element type, which integers occur (`B`) and whether number faults are possible (`F`). -/
structure Setup (V : Type) where
  c : Ctx V
  m : Machine V
  dt : DType
  B : Int → Prop
  F : Prop
  ops : Ops → Prop

namespace Setup

abbrev ty (S : Setup V) : Option Str := elemType S.c.L S.dt
abbrev T (S : Setup V) (v : V) : Prop := Elem S.c.L S.c.N S.dt v

structure Ok (S : Setup V) : Prop where
  imports : S.c.imports = if S.c.L = .python then ["math".toList] else ["include <stdint.h>".toList, "include <math.h>".toList]
  ints : IntLaws S.c.L S.c.N
  elems : Agrees S.c.L S.c.N S.dt S.m.A
  arith : ∀ op i j r, iarith S.m.ar op i j = some r → iarith (if S.c.L = .python then .python else .c) op i j = some r ∧ S.B r
  gpu : ∀ thread d v, S.m.gpu thread d = some v → S.c.L = .cuda ∧ S.c.gpu (if thread then "threadIdx".toList else "blockIdx".toList) (LangSpec.dimText d) = some v ∧ S.B v
  down : ∀ n i, S.B n → 0 ≤ i → i < n → S.B i
  small : S.B 0 ∧ S.B 1
  flit : ∀ i, S.B i → intV S.c.N i = none → S.F
  fint : ∀ op a b i j r, intBin S.c.L op i j = some r → S.B r → S.c.N.asInt a = some i → S.c.N.asInt b = some j → S.c.N.bin op a b = none → S.F
  fcast : ∀ t a i, t = "int".toList ∨ t = "int64_t".toList → S.c.N.asInt a = some i → S.B i → S.c.N.cast t a = none → S.F
  flitE : (intV S.c.N 0).bind (convert S.c.N S.ty) = none → S.F
  fdec : (S.c.N.dec 0 0).bind (convert S.c.N S.ty) = none → S.F
  fun1 : ∀ op a, S.ops op → Codegen.renderUn op = true → S.T a → (unVal S.c.N op a).bind (convert S.c.N S.ty) = none → S.F
  fbin : ∀ op a b, S.ops op → Codegen.renderBin op = true → S.T a → S.T b → (binVal S.c.L S.c.N op a b).bind (convert S.c.N S.ty) = none → S.F

end Setup

/-- The text-level variables `ρ` hold what the model's variables `σ` hold; `out` is the output buffer. -/
structure Rel (S : Setup V) (Γ : Scope) (σ : KEnv V) (ρ : Env V) (out : List V) : Prop where
  names : ∀ y, (ρ y).isSome → ∃ x : VName, y = x.chars
  fresh : S.c.L ≠ .python → ∀ x, Γ x = none → ρ x.chars = none
  idx : ∀ x, Γ x = some .idx → ∃ i t v, σ x = some (.I i) ∧ ρ x.chars = some (.num t v) ∧ S.c.N.asInt v = some i ∧ S.B i
  elem : ∀ x, Γ x = some .elem → ∃ v, σ x = some (.D v) ∧ ρ x.chars = some (.num S.ty v) ∧ S.T v
  arr : ∀ x, Γ x = some .arr → x ≠ .out → ∃ t l, ρ x.chars = some (.arr t l) ∧ S.m.mem x = some l ∧ ∀ v ∈ l, S.T v
  out : Γ .out = some .arr ∧ ρ VName.out.chars = some (.arr S.ty out) ∧ out.length = S.m.outLen

/-- Literals of an index expression. -/
def KI.lits (B : Int → Prop) : KI → Prop
  | .var _ => True
  | .lit c => B c
  | .bin _ l r => KI.lits B l ∧ KI.lits B r

section
variable {S : Setup V} (h : S.Ok) {Γ : Scope} {σ : KEnv V} {ρ : Env V} {out : List V} (hr : Rel S Γ σ ρ out)
include h

theorem litEx_out {P : List V → Prop} {i : Int} (hB : S.B i) (hP : ∀ v, intV S.c.N i = some v → P [v]) : Out S.F (evals S.c ρ (litEx i)) P := by
  unfold litEx
  have h0 := h.flit i hB
  unfold intV at h0 hP
  split
  · rename_i hi
    rw [if_pos hi] at h0
    simp only [if_pos hi] at hP
    simp only [evals]
    generalize hN : S.c.N.int i.natAbs = o at h0 hP
    cases o with
    | none => exact .inl ⟨rfl, h0 rfl⟩
    | some v =>
      simp only [Option.bind_some] at h0 hP
      simp only [lift, bind, Except.bind, one, pure, Except.pure]
      cases hn : S.c.N.neg v with
      | none => exact .inl ⟨rfl, h0 hn⟩
      | some u => exact .inr ⟨[u], rfl, hP u hn⟩
  · rename_i hi
    rw [if_neg hi] at h0
    simp only [if_neg hi] at hP
    simp only [evals]
    generalize hN : S.c.N.int i.natAbs = o at h0 hP
    cases o with
    | none => exact .inl ⟨rfl, h0 rfl⟩
    | some u => exact .inr ⟨[u], rfl, hP u rfl⟩

theorem intV_asInt {i : Int} {v : V} (hv : intV S.c.N i = some v) : S.c.N.asInt v = some i := by
  unfold intV at hv
  split at hv
  · obtain ⟨u, hu, hv⟩ := Option.bind_eq_some_iff.1 hv
    rw [h.ints.neg u _ v (h.ints.int _ _ hu) hv]
    congr 1; omega
  · rename_i hi
    rw [h.ints.int _ _ hv, Int.natAbs_of_nonneg (Int.not_lt.1 hi)]

/-- Truth values of integers. -/
theorem truth_int {a : V} {i : Int} (ha : S.c.N.asInt a = some i) : S.c.N.truth a = decide (i ≠ 0) := h.ints.truth a i ha

theorem intBin_of {op : Ops} {i j r : Int} (hop : op ≠ .And) (hop' : op ≠ .Or) (hi : iarith S.m.ar op i j = some r) : intBin S.c.L (opOf S.c.L op) i j = some r := by
  have := (h.arith op i j r hi).1
  clear hi
  cases hL : S.c.L <;> rw [hL] at this <;> simp only [iarith, reduceCtorEq, if_true, if_false] at this <;> cases op <;>
    simp_all [opOf, intBin, pyOp, cOp]

include hr in
theorem evalI_out : ∀ {e : KI} {i : Int}, evalKI S.m.ar σ e = some i → e.ok Γ = true → KI.lits S.B e →
    Out S.F (evals S.c ρ (e.ex S.c.L)) fun l => ∃ v, l = [v] ∧ S.c.N.asInt v = some i ∧ S.B i
  | .var x, i, he, hk, _ => by
    simp only [KI.ok, beq_iff_eq] at hk
    obtain ⟨i', t, v, h1, h2, h3, h4⟩ := hr.idx x hk
    simp only [evalKI, h1, Option.some.injEq] at he
    subst he
    simp only [KI.ex, Syntax.var, evals, h2]
    exact .ok ⟨v, rfl, h3, h4⟩
  | .lit c, i, he, _, hB => by
    cases he
    exact litEx_out h hB fun v hv => ⟨v, rfl, intV_asInt h hv, hB⟩
  | .bin op l r, i, he, hk, hB => by
    simp only [evalKI, Option.bind_eq_bind, Option.bind_eq_some_iff] at he
    obtain ⟨a, ha, b, hb, he⟩ := he
    simp only [KI.ok, Bool.and_eq_true] at hk
    have hl := evalI_out ha hk.1 hB.1
    have hrr := evalI_out hb hk.2 hB.2
    obtain ⟨har, hBi⟩ := h.arith op a b i he
    simp only [KI.ex, binEx]
    by_cases hP : op = .Pow
    · subst hP
      exfalso
      split at har <;> simp [iarith, pyOp, cOp] at har
    rw [if_neg hP]
    by_cases hA : op = .And
    · subst hA
      rw [show opOf S.c.L .And = .and by cases S.c.L <;> rfl]
      simp only [evals]
      refine hl.bind ?_
      rintro _ ⟨va, rfl, hva, _⟩
      simp only [one, bind, Except.bind]
      rw [truth_int h hva]
      by_cases hL : S.c.L = .python
      · rw [if_pos hL]
        rw [if_pos hL] at har
        simp only [iarith, pyOp, Option.some.injEq] at har
        by_cases h0 : a = 0
        · subst h0
          rw [if_pos rfl] at har
          subst har
          exact .ok ⟨va, by simp, hva, hBi⟩
        · simp only [ne_eq, h0, not_false_eq_true, decide_true, if_true]
          rw [if_neg h0] at har
          subst har
          refine hrr.bind ?_
          rintro _ ⟨vb, rfl, hvb, _⟩
          exact .ok ⟨vb, rfl, hvb, hBi⟩
      · rw [if_neg hL]
        rw [if_neg hL] at har
        simp only [iarith, cOp, Option.some.injEq] at har
        by_cases h0 : a = 0
        · subst h0
          simp only [ne_eq, not_true, false_and, if_false] at har
          subst har
          simp only [ne_eq, not_true, decide_false, Bool.false_eq_true, if_false]
          refine (out_lift (P := fun v => S.c.N.asInt v = some 0) (fun e => h.flit 0 hBi e) (fun v hv => h.ints.int 0 v hv)).bind fun v hv => ?_
          exact .ok ⟨v, rfl, hv, hBi⟩
        · simp only [ne_eq, h0, not_false_eq_true, decide_true, if_true]
          simp only [ne_eq, h0, not_false_eq_true, true_and] at har
          refine hrr.bind ?_
          rintro _ ⟨vb, rfl, hvb, _⟩
          simp only
          rw [truth_int h hvb]
          have hc : ((if decide (b ≠ 0) = true then 1 else 0 : Nat) : Int) = i := by
            rw [← har]; by_cases hb0 : b = 0 <;> simp [hb0]
          refine (out_lift (P := fun v => S.c.N.asInt v = some i) (fun e => h.flit i hBi ?_) (fun v hv => ?_)).bind fun v hv => .ok ⟨v, rfl, hv, hBi⟩
          · rw [← hc]; unfold intV
            rw [if_neg (by omega)]
            exact e
          · rw [h.ints.int _ v hv, hc]
    by_cases hO : op = .Or
    · subst hO
      rw [show opOf S.c.L .Or = .or by cases S.c.L <;> rfl]
      simp only [evals]
      refine hl.bind ?_
      rintro _ ⟨va, rfl, hva, _⟩
      simp only [one, bind, Except.bind]
      rw [truth_int h hva]
      by_cases hL : S.c.L = .python
      · rw [if_pos hL]
        rw [if_pos hL] at har
        simp only [iarith, pyOp, Option.some.injEq] at har
        by_cases h0 : a = 0
        · subst h0
          rw [if_pos rfl] at har
          subst har
          simp only [ne_eq, not_true, decide_false, Bool.false_eq_true, if_false]
          refine hrr.bind ?_
          rintro _ ⟨vb, rfl, hvb, _⟩
          exact .ok ⟨vb, rfl, hvb, hBi⟩
        · rw [if_neg h0] at har
          subst har
          simp only [ne_eq, h0, not_false_eq_true, decide_true, if_true]
          exact .ok ⟨va, rfl, hva, hBi⟩
      · rw [if_neg hL]
        rw [if_neg hL] at har
        simp only [iarith, cOp, Option.some.injEq] at har
        by_cases h0 : a = 0
        · subst h0
          simp only [ne_eq, not_true, false_or] at har
          simp only [ne_eq, not_true, decide_false, Bool.false_eq_true, if_false]
          refine hrr.bind ?_
          rintro _ ⟨vb, rfl, hvb, _⟩
          simp only
          rw [truth_int h hvb]
          have hc : ((if decide (b ≠ 0) = true then 1 else 0 : Nat) : Int) = i := by
            rw [← har]; by_cases hb0 : b = 0 <;> simp [hb0]
          refine (out_lift (P := fun v => S.c.N.asInt v = some i) (fun e => h.flit i hBi ?_) (fun v hv => ?_)).bind fun v hv => .ok ⟨v, rfl, hv, hBi⟩
          · rw [← hc]; unfold intV
            rw [if_neg (by omega)]
            exact e
          · rw [h.ints.int _ v hv, hc]
        · simp only [ne_eq, h0, not_false_eq_true, true_or, if_true] at har
          subst har
          simp only [ne_eq, h0, not_false_eq_true, decide_true, if_true]
          refine (out_lift (P := fun v => S.c.N.asInt v = some 1) (fun e => h.flit 1 hBi e) (fun v hv => h.ints.int 1 v hv)).bind fun v hv => ?_
          exact .ok ⟨v, rfl, hv, hBi⟩
    have hib := intBin_of h hA hO he
    have hne : opOf S.c.L op ≠ .and ∧ opOf S.c.L op ≠ .or ∧ opOf S.c.L op ≠ .comma := by
      refine ⟨?_, ?_, ?_⟩ <;> intro e <;> rw [e] at hib <;> cases S.c.L <;> simp [intBin] at hib
    have hev : evals S.c ρ (.bin (opOf S.c.L op) (l.ex S.c.L) (r.ex S.c.L)) = (do
        let a ← one (← evals S.c ρ (l.ex S.c.L))
        let b ← one (← evals S.c ρ (r.ex S.c.L))
        pure [← lift (S.c.N.bin (opOf S.c.L op) a b)]) := by
      generalize opOf S.c.L op = o at hne
      cases o <;> simp only [ne_eq, not_true, reduceCtorEq, not_false_eq_true, false_and, and_false] at hne <;> rfl
    rw [hev]
    refine hl.bind ?_
    rintro _ ⟨va, rfl, hva, _⟩
    refine hrr.bind ?_
    rintro _ ⟨vb, rfl, hvb, _⟩
    refine (out_lift (fun e => h.fint _ va vb a b i hib hBi hva hvb e) (fun v hv => h.ints.bin _ va vb a b i v hva hvb hib hv)).bind fun v hv => ?_
    exact .ok ⟨v, rfl, hv, hBi⟩

end

/-- Variables and array elements. -/
def KD.solid (B : Int → Prop) : KD → Prop
  | .var _ => True
  | .read _ i => KI.lits B i
  | _ => False

/-- The value expressions that occur in generated statements. -/
def KD.form (B : Int → Prop) (ops : Ops → Prop) : KD → Prop
  | .lit c => c = 0
  | .zero _ => True
  | .un op a => ops op ∧ Codegen.renderUn op = true ∧ KD.solid B a
  | .bin op a b => ops op ∧ Codegen.renderBin op = true ∧ KD.solid B a ∧ KD.solid B b
  | e => KD.solid B e

section
variable {S : Setup V} (h : S.Ok) {Γ : Scope} {σ : KEnv V} {ρ : Env V} {out : List V} (hr : Rel S Γ σ ρ out)
include h hr

theorem unnamed {s : String} (hs : s ∈ reserved) : ρ s.toList = none := by
  cases e : ρ s.toList with
  | none => rfl
  | some o =>
    obtain ⟨x, hx⟩ := hr.names _ (by rw [e]; rfl)
    exact absurd hs (by
      have : x.render = s := by rw [VName.render, ← hx]; simp
      exact this ▸ Props.C35_reserved x)

theorem solid_out {e : KD} {v : V} (he : evalKD S.m σ e = some v) (hk : e.ok Γ = true) (hs : KD.solid S.B e) (hno : ∀ i, e ≠ .read .out i) :
    Out S.F (evals S.c ρ (e.ex S.c.L)) fun l => l = [v] ∧ S.T v := by
  cases e with
  | var x =>
    simp only [KD.ok, beq_iff_eq] at hk
    obtain ⟨u, h1, h2, h3⟩ := hr.elem x hk
    simp only [evalKD, h1, Option.some.injEq] at he
    subst he
    simp only [KD.ex, Syntax.var, evals, h2]
    exact .ok ⟨rfl, h3⟩
  | read a i =>
    simp only [KD.ok, Bool.and_eq_true, beq_iff_eq] at hk
    obtain ⟨t, l, h1, h2, h3⟩ := hr.arr a hk.1 (fun e => hno i (by rw [e]))
    simp only [evalKD, h2, Option.bind_eq_bind, Option.bind_some, Option.bind_eq_some_iff] at he
    obtain ⟨k, hki, he⟩ := he
    unfold fetch at he
    split at he
    · rename_i h0
      simp only [KD.ex, Syntax.var, evals, h1]
      refine (evalI_out h hr hki hk.2 hs).bind ?_
      rintro _ ⟨u, rfl, hu, _⟩
      have hlt : k < l.length := by have := (List.getElem?_eq_some_iff.1 he).1; omega
      have : (S.c.N.asInt u).bind (position S.c.L l.length) = some k.toNat := by
        rw [hu, Option.bind_some, position, if_pos h0, if_pos hlt]
      simp only [one, bind, Except.bind, this, he]
      exact .ok ⟨rfl, h3 v (List.mem_of_getElem? he)⟩
    · cases he
  | _ => exact hs.elim

theorem solid_T {e : KD} {v : V} (he : evalKD S.m σ e = some v) (hk : e.ok Γ = true) (hs : KD.solid S.B e) (hno : ∀ i, e ≠ .read .out i) : S.T v := by
  cases e with
  | var x =>
    simp only [KD.ok, beq_iff_eq] at hk
    obtain ⟨u, h1, h2, h3⟩ := hr.elem x hk
    simp only [evalKD, h1, Option.some.injEq] at he
    exact he ▸ h3
  | read a i =>
    simp only [KD.ok, Bool.and_eq_true, beq_iff_eq] at hk
    obtain ⟨t, l, h1, h2, h3⟩ := hr.arr a hk.1 (fun e => hno i (by rw [e]))
    simp only [evalKD, h2, Option.bind_eq_bind, Option.bind_some, Option.bind_eq_some_iff] at he
    obtain ⟨k, hki, he⟩ := he
    unfold fetch at he
    split at he
    · exact h3 v (List.mem_of_getElem? he)
    · cases he
  | _ => exact hs.elim

/-- The raw value of an expression, before it is converted to the element type. -/
theorem form_out {e : KD} {v : V} (he : evalKD S.m σ e = some v) (hk : e.ok Γ = true) (hf : KD.form S.B S.ops e) (hno : ∀ x ∈ e.reads, x ≠ .out) :
    Out S.F (eval S.c ρ (e.ex S.c.L)) fun u => (convert S.c.N S.ty u = none → S.F) ∧ ∀ w, convert S.c.N S.ty u = some w → w = v ∧ S.T v := by
  have solid : ∀ {e : KD} {v : V}, evalKD S.m σ e = some v → e.ok Γ = true → KD.solid S.B e → (∀ x ∈ e.reads, x ≠ .out) → Out S.F (eval S.c ρ (e.ex S.c.L)) fun u => u = v ∧ S.T v := by
    intro e v he hk hs hno
    unfold eval
    refine (solid_out h hr he hk hs (fun i e' => hno .out (by rw [e']; exact List.mem_cons_self) rfl)).bind ?_
    rintro _ ⟨rfl, hT⟩
    exact .ok ⟨rfl, hT⟩
  have hid : ∀ u, S.T u → (convert S.c.N S.ty u = none → S.F) ∧ ∀ w, convert S.c.N S.ty u = some w → w = u ∧ S.T u := by
    intro u hu
    unfold Setup.T Elem at hu
    rw [hu]
    exact ⟨fun e => (by cases e), fun w e => ⟨(Option.some.inj e).symm, hu⟩⟩
  have fin : ∀ {o : Option V} {v : V}, (o.bind (convert S.c.N S.ty) = none → S.F) → (∀ w, o.bind (convert S.c.N S.ty) = some w → v = w) →
      Out S.F (lift o) fun u => (convert S.c.N S.ty u = none → S.F) ∧ ∀ w, convert S.c.N S.ty u = some w → w = v ∧ S.T v := by
    intro o v h0 h1
    refine out_lift (fun e => h0 (by rw [e]; rfl)) (fun u hu => ?_)
    subst hu
    exact ⟨h0, fun w hw => ⟨(h1 w hw).symm, (h1 w hw) ▸ h.elems.conv u w hw⟩⟩
  cases e with
  | var x => exact (solid he hk hf hno).mono (by rintro u ⟨rfl, ht⟩; exact hid u ht)
  | read a i => exact (solid he hk hf hno).mono (by rintro u ⟨rfl, ht⟩; exact hid u ht)
  | lit c =>
    cases he
    cases (show c = 0 from hf)
    unfold eval
    have hl : Out S.F (evals S.c ρ (litEx 0)) fun l => ∃ u, l = [u] ∧ intV S.c.N 0 = some u := litEx_out h h.small.1 fun v hv => ⟨v, rfl, hv⟩
    refine hl.bind ?_
    rintro _ ⟨u, rfl, hu⟩
    refine .ok ⟨fun e => h.flitE (by rw [hu]; exact e), fun w hw => ?_⟩
    have := h.elems.int 0 w (by rw [hu]; exact hw)
    exact ⟨this.symm, this ▸ h.elems.conv u w hw⟩
  | zero b =>
    cases b with
    | true =>
      cases he
      simp only [KD.ex, eval, evals, bind_assoc]
      have := fin (o := S.c.N.int 0) (v := S.m.A.ofInt 0) h.flitE (h.elems.int 0)
      refine this.bind fun u hu => .ok hu
    | false =>
      cases he
      simp only [KD.ex, eval, evals, bind_assoc]
      have := fin (o := S.c.N.dec 0 0) (v := S.m.A.fzero) h.fdec h.elems.dec
      refine this.bind fun u hu => .ok hu
  | un op a =>
    simp only [evalKD, Option.bind_eq_bind, Option.bind_eq_some_iff] at he
    obtain ⟨x, hx, he⟩ := he
    cases he
    obtain ⟨hop, hru, hs⟩ := hf
    have ha : Out S.F (evals S.c ρ (a.ex S.c.L)) fun l => l = [x] ∧ S.T x :=
      solid_out h hr hx hk hs (fun i e' => hno .out (by rw [e']; exact List.mem_cons_self) rfl)
    have key : Out S.F (eval S.c ρ ((KD.un op a).ex S.c.L)) fun u => ∃ y, S.T x ∧ unVal S.c.N op x = some y ∧ u = y := by
      have h1 : (S.T x → unVal S.c.N op x = none → S.F) := fun hT e => h.fun1 op x hop hru hT (by rw [e]; rfl)
      simp only [KD.ex, unEx, eval]
      unfold unVal at h1 ⊢
      by_cases hn : op = .Neg
      · simp only [if_pos hn, evals, bind_assoc] at h1 ⊢
        refine ha.bind ?_
        rintro _ ⟨rfl, hT⟩
        simp only [one, bind, Except.bind]
        refine (out_lift (h1 hT) (P := fun u => S.c.N.neg x = some u) (fun v hv => hv)).bind fun u hu => .ok ⟨u, hT, hu, rfl⟩
      · simp only [if_neg hn] at h1 ⊢
        have hfn : fnName op ∈ functions ∧ ∃ s : String, s ∈ reserved ∧ s.toList = fnName op := by
          revert hru hn
          cases op <;> simp only [Codegen.renderUn, Bool.false_eq_true, false_imp_iff, ne_eq, not_true, reduceCtorEq, not_false_eq_true, forall_const, imp_self]
          · exact ⟨by decide, "sin", by decide, rfl⟩
          · exact ⟨by decide, "cos", by decide, rfl⟩
          · exact ⟨by decide, "exp", by decide, rfl⟩
          · exact ⟨by decide, "log", by decide, rfl⟩
          · exact ⟨by decide, "sqrt", by decide, rfl⟩
        obtain ⟨hfn, s, hs, hse⟩ := hfn
        have hnone : ρ (fnName op) = none := hse ▸ unnamed h hr hs
        have hcal : callee S.c ρ (if S.c.L = .python then .member (.name "math".toList) (fnName op) else .name (fnName op)) = some (fnName op) := by
          by_cases hL : S.c.L = .python
          · have := unnamed h hr (s := "math") (by decide)
            rw [if_pos hL]
            exact if_pos ⟨hL, rfl, by rw [h.imports, if_pos hL]; exact List.mem_singleton.2 rfl, by rw [this]; rfl, hfn⟩
          · rw [if_neg hL]
            simp only [callee, hnone, Option.isSome_none, Bool.false_eq_true, if_false, hL]
            rw [if_pos ⟨by rw [h.imports, if_neg hL]; simp, Or.inr hfn⟩]
        have : (if S.c.L = .python then Ex.app (.member (.name "math".toList) (fnName op)) (a.ex S.c.L) else .app (.name (fnName op)) (a.ex S.c.L)) =
            .app (if S.c.L = .python then .member (.name "math".toList) (fnName op) else .name (fnName op)) (a.ex S.c.L) := by split <;> rfl
        rw [this]
        simp only [evals, hcal, bind_assoc]
        refine ha.bind ?_
        rintro _ ⟨rfl, hT⟩
        refine (out_lift (h1 hT) (P := fun u => S.c.N.call (fnName op) [x] = some u) (fun v hv => hv)).bind fun u hu => .ok ⟨u, hT, hu, rfl⟩
    refine key.mono ?_
    rintro _ ⟨y, hT, hy, rfl⟩
    refine ⟨fun e => h.fun1 op x hop hru hT (by rw [hy]; exact e), fun w hw => ?_⟩
    have := h.elems.un op x w hT (by rw [hy]; exact hw)
    exact ⟨this.symm, this ▸ h.elems.conv _ w hw⟩
  | bin op a b =>
    simp only [evalKD, Option.bind_eq_bind, Option.bind_eq_some_iff] at he
    obtain ⟨x, hx, y, hy, he⟩ := he
    cases he
    obtain ⟨hop, hru, hsa, hsb⟩ := hf
    simp only [KD.ok, Bool.and_eq_true] at hk
    have ha : Out S.F (evals S.c ρ (a.ex S.c.L)) fun l => l = [x] ∧ S.T x :=
      solid_out h hr hx hk.1 hsa (fun i e' => hno .out (by rw [e']; exact List.mem_append_left _ List.mem_cons_self) rfl)
    have hb : Out S.F (evals S.c ρ (b.ex S.c.L)) fun l => l = [y] ∧ S.T y :=
      solid_out h hr hy hk.2 hsb (fun i e' => hno .out (by rw [e']; exact List.mem_append_right _ List.mem_cons_self) rfl)
    have hTx := solid_T h hr hx hk.1 hsa (fun i e' => hno .out (by rw [e']; exact List.mem_append_left _ List.mem_cons_self) rfl)
    have hTy := solid_T h hr hy hk.2 hsb (fun i e' => hno .out (by rw [e']; exact List.mem_append_right _ List.mem_cons_self) rfl)
    have h1 : binVal S.c.L S.c.N op x y = none → S.F := fun e => h.fbin op x y hop hru hTx hTy (by rw [e]; rfl)
    have key : Out S.F (eval S.c ρ ((KD.bin op a b).ex S.c.L)) fun u => binVal S.c.L S.c.N op x y = some u := by
      simp only [KD.ex, binEx, eval]
      unfold binVal at h1 ⊢
      by_cases hP : op = .Pow
      · simp only [if_pos hP] at h1 ⊢
        have hnone : ρ "pow".toList = none := unnamed h hr (by decide)
        have hcal : callee S.c ρ (.name "pow".toList) = some "pow".toList := by
          simp only [callee, hnone, Option.isSome_none, Bool.false_eq_true, if_false]
          by_cases hL : S.c.L = .python
          · rw [if_pos hL, if_pos trivial]
          · rw [if_neg hL, if_pos ⟨by rw [h.imports, if_neg hL]; simp, by simp⟩]
        simp only [evals, hcal, bind_assoc]
        refine ha.bind ?_
        rintro _ ⟨rfl, _⟩
        refine hb.bind ?_
        rintro _ ⟨rfl, _⟩
        exact (out_lift h1 (P := fun u => S.c.N.call "pow".toList [x, y] = some u) (fun v hv => hv)).bind fun u hu => .ok hu
      simp only [if_neg hP] at h1 ⊢
      by_cases hA : op = .And
      · simp only [if_pos hA] at h1 ⊢
        rw [show opOf S.c.L op = .and by subst hA; cases S.c.L <;> rfl]
        simp only [evals, bind_assoc]
        refine ha.bind ?_
        rintro _ ⟨rfl, _⟩
        simp only [one, ok_bind]
        by_cases hL : S.c.L = .python
        · simp only [if_pos hL]
          by_cases ht : S.c.N.truth x = true
          · simp only [ht, if_true]
            refine Out.bind (P := fun l => l = [y]) (hb.bind ?_) ?_
            · rintro _ ⟨rfl, _⟩; exact .ok rfl
            · rintro _ rfl; exact .ok rfl
          · simp only [ht, Bool.false_eq_true, if_false]
            exact .ok rfl
        · simp only [if_neg hL] at h1 ⊢
          by_cases ht : S.c.N.truth x = true
          · simp only [ht, if_true, Bool.true_and] at h1 ⊢
            refine Out.bind (P := fun l => ∃ u, l = [u] ∧ S.c.N.int (if S.c.N.truth y = true then 1 else 0) = some u) (hb.bind ?_) ?_
            · rintro _ ⟨rfl, _⟩
              exact (out_lift h1 (P := fun u => S.c.N.int (if S.c.N.truth y = true then 1 else 0) = some u) (fun v hv => hv)).bind fun u hu => .ok ⟨u, rfl, hu⟩
            · rintro _ ⟨u, rfl, hu⟩; exact .ok hu
          · simp only [ht, Bool.false_eq_true, if_false, Bool.false_and] at h1 ⊢
            exact ((out_lift h1 (P := fun u => S.c.N.int 0 = some u) (fun v hv => hv)).bind (Q := fun l => ∃ u, l = [u] ∧ S.c.N.int 0 = some u) fun u hu => .ok ⟨u, rfl, hu⟩).bind
              (by rintro _ ⟨u, rfl, hu⟩; exact .ok hu)
      simp only [if_neg hA] at h1 ⊢
      by_cases hO : op = .Or
      · simp only [if_pos hO] at h1 ⊢
        rw [show opOf S.c.L op = .or by subst hO; cases S.c.L <;> rfl]
        simp only [evals, bind_assoc]
        refine ha.bind ?_
        rintro _ ⟨rfl, _⟩
        simp only [one, ok_bind]
        by_cases hL : S.c.L = .python
        · simp only [if_pos hL]
          by_cases ht : S.c.N.truth x = true
          · simp only [ht, if_true]
            exact .ok rfl
          · simp only [ht, Bool.false_eq_true, if_false]
            refine Out.bind (P := fun l => l = [y]) (hb.bind ?_) ?_
            · rintro _ ⟨rfl, _⟩; exact .ok rfl
            · rintro _ rfl; exact .ok rfl
        · simp only [if_neg hL] at h1 ⊢
          by_cases ht : S.c.N.truth x = true
          · simp only [ht, if_true, Bool.true_or] at h1 ⊢
            exact ((out_lift h1 (P := fun u => S.c.N.int 1 = some u) (fun v hv => hv)).bind (Q := fun l => ∃ u, l = [u] ∧ S.c.N.int 1 = some u) fun u hu => .ok ⟨u, rfl, hu⟩).bind
              (by rintro _ ⟨u, rfl, hu⟩; exact .ok hu)
          · simp only [ht, Bool.false_eq_true, if_false, Bool.false_or] at h1 ⊢
            refine Out.bind (P := fun l => ∃ u, l = [u] ∧ S.c.N.int (if S.c.N.truth y = true then 1 else 0) = some u) (hb.bind ?_) ?_
            · rintro _ ⟨rfl, _⟩
              exact (out_lift h1 (P := fun u => S.c.N.int (if S.c.N.truth y = true then 1 else 0) = some u) (fun v hv => hv)).bind fun u hu => .ok ⟨u, rfl, hu⟩
            · rintro _ ⟨u, rfl, hu⟩; exact .ok hu
      simp only [if_neg hO] at h1 ⊢
      have hne : opOf S.c.L op ≠ .and ∧ opOf S.c.L op ≠ .or ∧ opOf S.c.L op ≠ .comma := by
        cases S.c.L <;> revert hru hP hA hO <;> cases op <;> decide
      have hev : evals S.c ρ (.bin (opOf S.c.L op) (a.ex S.c.L) (b.ex S.c.L)) = (do
          let a ← one (← evals S.c ρ (a.ex S.c.L))
          let b ← one (← evals S.c ρ (b.ex S.c.L))
          pure [← lift (S.c.N.bin (opOf S.c.L op) a b)]) := by
        generalize opOf S.c.L op = o at hne
        cases o <;> simp only [ne_eq, not_true, reduceCtorEq, not_false_eq_true, false_and, and_false] at hne <;> rfl
      rw [hev]
      simp only [bind_assoc]
      refine ha.bind ?_
      rintro _ ⟨rfl, _⟩
      refine hb.bind ?_
      rintro _ ⟨rfl, _⟩
      exact (out_lift h1 (P := fun u => S.c.N.bin (opOf S.c.L op) x y = some u) (fun v hv => hv)).bind fun u hu => .ok hu
    refine key.mono ?_
    intro u hu
    refine ⟨fun e => h.fbin op x y hop hru hTx hTy (by rw [hu]; exact e), fun w hw => ?_⟩
    have := h.elems.bin op x y w hTx hTy (by rw [hu]; exact hw)
    exact ⟨this.symm, this ▸ h.elems.conv _ w hw⟩

end
end Whale.Sem
