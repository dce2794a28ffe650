import Verif.Proofs.Lex
import Verif.Props.Scope
/-
Printed expressions parse back.
-/
namespace Whale.Syntax
open Whale LangSpec

/-- What may follow an expression of level `q`: nothing that continues an operand, and no operator that binds more tightly than `q`. -/
def Stop (L : Lang) (q : Nat) : List Tok → Prop
  | [] => True
  | t :: _ => t ≠ .sym ['('] ∧ t ≠ .sym ['['] ∧ t ≠ .sym ['.'] ∧ ∀ op q', binop L t = some (op, q') → q' ≤ q

theorem Stop.mono {L : Lang} {q q' : Nat} {ts : List Tok} (h : Stop L q ts) (hq : q ≤ q') : Stop L q' ts := by
  cases ts with
  | nil => trivial
  | cons t ts => exact ⟨h.1, h.2.1, h.2.2.1, fun op q'' e => Nat.le_trans (h.2.2.2 op q'' e) hq⟩

/-- The tokens `ts` are an expression `e` at every level up to `q`. -/
def PE (L : Lang) (q : Nat) (ts : List Tok) (e : Ex) : Prop :=
  ∃ k, k + 1 ≤ 4 * ts.length ∧ ∀ p ≤ q, ∀ rest, Stop L q rest → ∀ m x, (∀ f ≥ m, climb L f p e rest = some x) → ∀ f ≥ m + k, expr L f p (ts ++ rest) = some x

theorem PE.mono {L : Lang} {q q' : Nat} {ts : List Tok} {e : Ex} (h : PE L q' ts e) (hq : q ≤ q') : PE L q ts e := by
  obtain ⟨k, h1, h⟩ := h
  exact ⟨k, h1, fun p hp rest hs m x hx => h p (Nat.le_trans hp hq) rest (hs.mono hq) m x hx⟩

/-- An operand: what `unary` reads. -/
def PU (L : Lang) (ts : List Tok) (e : Ex) : Prop :=
  ∃ k, k + 2 ≤ 4 * ts.length ∧ ∀ q rest, Stop L q rest → ∀ f ≥ k, unary L f (ts ++ rest) = some (e, rest)

theorem PU.pe {L : Lang} {ts : List Tok} {e : Ex} (h : PU L ts e) (q : Nat) : PE L q ts e := by
  obtain ⟨k, h1, h⟩ := h
  refine ⟨k + 1, by omega, fun p hp rest hs m x hx f hf => ?_⟩
  obtain ⟨f, rfl⟩ : ∃ f', f = f' + 1 := ⟨f - 1, by omega⟩
  rw [expr, h q rest hs f (by omega)]
  exact hx f (by omega)

/-- A primary before its postfixes: `unary` on `ts ++ rest` is `postfix_` on `rest`. -/
def PP (L : Lang) (ts : List Tok) (e : Ex) : Prop :=
  ∃ k, k + 3 ≤ 4 * ts.length ∧ ∀ rest m x, (∀ f ≥ m, postfix_ L f e rest = some x) → ∀ f ≥ m + k, unary L f (ts ++ rest) = some x

theorem postfix_stop {L : Lang} {q : Nat} {e : Ex} {rest : List Tok} (h : Stop L q rest) : ∀ f ≥ 1, postfix_ L f e rest = some (e, rest) := by
  intro f hf
  obtain ⟨f, rfl⟩ : ∃ f', f = f' + 1 := ⟨f - 1, by omega⟩
  cases rest with
  | nil => rw [postfix_] <;> simp
  | cons t ts =>
    obtain ⟨h1, h2, h3, _⟩ := h
    rw [postfix_]
    · rintro ts ⟨⟩; exact h1 rfl
    · rintro ts ⟨⟩; exact h2 rfl
    · rintro s ts ⟨⟩; exact h3 rfl
    · rintro ts ⟨⟩; exact h3 rfl

theorem PP.pu {L : Lang} {ts : List Tok} {e : Ex} (h : PP L ts e) : PU L ts e := by
  obtain ⟨k, h1, h⟩ := h
  exact ⟨k + 1, by omega, fun q rest hs f hf => h rest 1 _ (postfix_stop hs) f (by omega)⟩

theorem PP.name {L : Lang} {s : Str} (h : isName L s = true) : PP L [.word s] (.name s) := by
  refine ⟨1, by simp, fun rest m x hx f hf => ?_⟩
  obtain ⟨f, rfl⟩ : ∃ f', f = f' + 1 := ⟨f - 1, by omega⟩
  rw [List.singleton_append, unary, if_pos h]
  exact hx f (by omega)

theorem PP.number {L : Lang} {s : Str} {e : Ex} (h : number s = some e) : PP L [.num s] e := by
  refine ⟨1, by simp, fun rest m x hx f hf => ?_⟩
  obtain ⟨f, rfl⟩ : ∃ f', f = f' + 1 := ⟨f - 1, by omega⟩
  rw [List.singleton_append, unary, h]
  exact hx f (by omega)

theorem PU.neg {L : Lang} {ts : List Tok} {e : Ex} (h : PU L ts e) : PU L (.sym ['-'] :: ts) (.neg e) := by
  obtain ⟨k, h1, h⟩ := h
  refine ⟨k + 1, by simp; omega, fun q rest hs f hf => ?_⟩
  obtain ⟨f, rfl⟩ : ∃ f', f = f' + 1 := ⟨f - 1, by omega⟩
  rw [List.cons_append, unary, h q rest hs f (by omega)]

/-- Before a closing token the expression is complete. -/
def Closed (L : Lang) : List Tok → Prop
  | [] => True
  | t :: _ => t ≠ .sym ['('] ∧ t ≠ .sym ['['] ∧ t ≠ .sym ['.'] ∧ binop L t = none

theorem Closed.stop {L : Lang} {ts : List Tok} (h : Closed L ts) (q : Nat) : Stop L q ts := by
  cases ts with
  | nil => trivial
  | cons t ts => exact ⟨h.1, h.2.1, h.2.2.1, fun op q' e => by rw [h.2.2.2] at e; cases e⟩

theorem Closed.climb {L : Lang} {ts : List Tok} (h : Closed L ts) (p : Nat) (e : Ex) : ∀ f ≥ 1, Syntax.climb L f p e ts = some (e, ts) := by
  intro f hf
  obtain ⟨f, rfl⟩ : ∃ f', f = f' + 1 := ⟨f - 1, by omega⟩
  cases ts with
  | nil => rw [Syntax.climb]
  | cons t ts => rw [Syntax.climb, h.2.2.2]

theorem PE.closed {L : Lang} {q : Nat} {ts : List Tok} {e : Ex} (h : PE L q ts e) {rest : List Tok} (hr : Closed L rest) : ∀ f ≥ 4 * ts.length, expr L f 0 (ts ++ rest) = some (e, rest) := by
  obtain ⟨k, h1, h⟩ := h
  intro f hf
  exact h 0 (by omega) rest (hr.stop q) 1 _ (hr.climb 0 e) f (by omega)

theorem PE.expression {L : Lang} {q : Nat} {ts : List Tok} {e : Ex} (h : PE L q ts e) {rest : List Tok} (hr : Closed L rest) : expression L (ts ++ rest) = some (e, rest) :=
  h.closed hr _ (by simp; omega)

theorem closed_sym {L : Lang} {c : Char} (h : c = ')' ∨ c = ']' ∨ c = ';' ∨ c = ':' ∨ c = '=' ∨ c = '{') (ts : List Tok) : Closed L (.sym [c] :: ts) := by
  rcases h with h | h | h | h | h | h <;> subst h <;> exact ⟨by decide, by decide, by decide, by cases L <;> rfl⟩

theorem PP.paren {L : Lang} {q : Nat} {ts : List Tok} {e : Ex} (h : PE L q ts e) : PP L (.sym ['('] :: (ts ++ [.sym [')']])) e := by
  refine ⟨4 * ts.length + 1, by simp; omega, fun rest m x hx f hf => ?_⟩
  obtain ⟨f, rfl⟩ : ∃ f', f = f' + 1 := ⟨f - 1, by omega⟩
  rw [List.cons_append, List.append_assoc, List.singleton_append, unary, h.closed (closed_sym (by simp) _) f (by omega)]
  exact hx f (by omega)

theorem PP.app {L : Lang} {q : Nat} {tf ts : List Tok} {g e : Ex} (hf : PP L tf g) (h : PE L q ts e) : PP L (tf ++ (.sym ['('] :: (ts ++ [.sym [')']]))) (.app g e) := by
  obtain ⟨k, hk, hp⟩ := hf
  refine ⟨k + 4 * ts.length + 1, by simp; omega, fun rest m x hx f hf => ?_⟩
  rw [List.append_assoc]
  refine hp _ (m + 4 * ts.length + 1) x (fun f hf => ?_) f (by omega)
  obtain ⟨f, rfl⟩ : ∃ f', f = f' + 1 := ⟨f - 1, by omega⟩
  rw [List.cons_append, List.append_assoc, List.singleton_append, postfix_, h.closed (closed_sym (by simp) _) f (by omega)]
  exact hx f (by omega)

theorem PP.index {L : Lang} {q : Nat} {tf ts : List Tok} {g e : Ex} (hf : PP L tf g) (h : PE L q ts e) : PP L (tf ++ (.sym ['['] :: (ts ++ [.sym [']']]))) (.index g e) := by
  obtain ⟨k, hk, hp⟩ := hf
  refine ⟨k + 4 * ts.length + 1, by simp; omega, fun rest m x hx f hf => ?_⟩
  rw [List.append_assoc]
  refine hp _ (m + 4 * ts.length + 1) x (fun f hf => ?_) f (by omega)
  obtain ⟨f, rfl⟩ : ∃ f', f = f' + 1 := ⟨f - 1, by omega⟩
  rw [List.cons_append, List.append_assoc, List.singleton_append, postfix_, h.closed (closed_sym (by simp) _) f (by omega)]
  exact hx f (by omega)

theorem PP.member {L : Lang} {tf : List Tok} {g : Ex} (hf : PP L tf g) (s : Str) : PP L (tf ++ [.sym ['.'], .word s]) (.member g s) := by
  obtain ⟨k, hk, hp⟩ := hf
  refine ⟨k + 1, by simp; omega, fun rest m x hx f hf => ?_⟩
  rw [List.append_assoc]
  refine hp _ (m + 1) x (fun f hf => ?_) f (by omega)
  obtain ⟨f, rfl⟩ : ∃ f', f = f' + 1 := ⟨f - 1, by omega⟩
  rw [List.cons_append, List.singleton_append, postfix_]
  exact hx f (by omega)

/-- A binary operator of level `q0`. -/
theorem PE.bin {L : Lang} {q q0 ql qr : Nat} {tl tr : List Tok} {t : Tok} {op : BOp} {l r : Ex} (ht : binop L t = some (op, q0)) (hsep : t ≠ .sym ['('] ∧ t ≠ .sym ['['] ∧ t ≠ .sym ['.'])
    (hl : PE L ql tl l) (hr : PE L qr tr r) (h1 : q ≤ q0) (h2 : q0 ≤ ql) (h3 : q0 + 1 ≤ qr) (h4 : q0 = 9 → q ≤ 8) :
    PE L q (tl ++ (t :: tr)) (.bin op l r) := by
  obtain ⟨kl, hkl, hl⟩ := hl
  obtain ⟨kr, hkr, hr⟩ := hr
  refine ⟨kl + kr + 2, by simp; omega, fun p hp rest hs m x hx f hf => ?_⟩
  rw [List.append_assoc, List.cons_append]
  refine hl p (by omega) (t :: (tr ++ rest)) ⟨hsep.1, hsep.2.1, hsep.2.2, fun op' q' e => ?_⟩ (m + kr + 2) x (fun f hf => ?_) f (by omega)
  · rw [ht] at e; cases e; exact h2
  · obtain ⟨f, rfl⟩ : ∃ f', f = f' + 1 := ⟨f - 1, by omega⟩
    have hcl : ∀ f ≥ 1, climb L f (q0 + 1) r rest = some (r, rest) := by
      intro f hf
      obtain ⟨f, rfl⟩ : ∃ f', f = f' + 1 := ⟨f - 1, by omega⟩
      cases rest with
      | nil => rw [climb]
      | cons u rest =>
        rw [climb]
        cases hb : binop L u with
        | none => rfl
        | some o =>
          obtain ⟨o, qo⟩ := o
          have := hs.2.2.2 o qo hb
          simp only
          rw [if_neg (by omega)]
    have hch : chains L q0 rest = false := by
      cases rest with
      | nil => rfl
      | cons u rest =>
        simp only [chains]
        by_cases hq : q0 = 9
        · cases hb : binop L u with
          | none => simp
          | some o =>
            obtain ⟨o, qo⟩ := o
            have := hs.2.2.2 o qo hb
            have h9 : qo ≠ 9 := by have := h4 hq; omega
            simp [h9]
        · simp [hq]
    rw [climb, ht]
    simp only
    rw [if_pos (by omega), hr (q0 + 1) h3 rest (hs.mono (by omega)) 1 _ hcl f (by omega)]
    simp only [hch, Bool.false_eq_true, if_false]
    exact hx f (by omega)

/-! ### names and numbers -/

theorem keywords_reserved (L : Lang) : ∀ s ∈ keywords L, s ∈ reserved := by cases L <;> decide +kernel

theorem var_isName (L : Lang) (v : VName) : isName L v.chars = true := by
  unfold isName
  rw [Bool.not_eq_true', ← Bool.not_eq_true, List.contains_iff_mem, List.mem_map]
  rintro ⟨s, hs, e⟩
  apply Props.C35_reserved v
  have : v.render = s := by rw [VName.render, ← e]; simp
  rw [this]
  exact keywords_reserved L s hs

theorem digits_head (n : Nat) : Nat.toDigits 10 n = ['0'] ∨ (Nat.toDigits 10 n).head? ≠ some '0' := by
  induction n using Nat.strongRecOn with
  | _ n ih =>
    by_cases h : n < 10
    · rw [Nat.toDigits_of_lt_base h]
      have : ∀ n < 10, [n.digitChar] = ['0'] ∨ [n.digitChar].head? ≠ some '0' := by decide
      exact this n h
    · right
      rw [Nat.toDigits_eq_if (by decide), if_neg h]
      obtain ⟨c, cs, e⟩ := List.exists_cons_of_ne_nil (digits_ne (n / 10))
      rcases ih (n / 10) (by omega) with h0 | h0
      · have : n / 10 = 0 := digits_inj (by rw [h0]; rfl)
        omega
      · rw [e] at h0 ⊢
        simpa using h0

theorem natOf_digits (n : Nat) : natOf (Nat.toDigits 10 n) = some n := by
  unfold natOf
  rw [if_pos ⟨digits_ne n, List.all_eq_true.2 (digits_all n), digits_head n⟩, Nat.ofDigitChars_toDigits (by decide) (by decide)]

theorem number_digits (n : Nat) : number (Nat.toDigits 10 n) = some (.int n) := by
  rw [number, natOf_digits]

theorem PU.int (L : Lang) (c : Int) : PU L (intToks c) (litEx c) := by
  unfold intToks litEx
  split
  · exact (PP.number (number_digits _)).pu.neg
  · exact (PP.number (number_digits _)).pu

/-- The text `s` is an expression `e` at level `q`. -/
def Ev (L : Lang) (q : Nat) (s : Str) (e : Ex) : Prop := ∃ ts, Lx L s ts ∧ PE L q ts e

theorem Ev.mono {L : Lang} {q q' : Nat} {s : Str} {e : Ex} (h : Ev L q' s e) (hq : q ≤ q') : Ev L q s e := by
  obtain ⟨ts, h1, h2⟩ := h
  exact ⟨ts, h1, h2.mono hq⟩

theorem Ev.var (L : Lang) (q : Nat) (x : VName) : Ev L q x.chars (var x) := ⟨_, Lx.word (chars_word x), (PP.name (var_isName L x)).pu.pe q⟩

theorem Ev.int (L : Lang) (q : Nat) (c : Int) : Ev L q (intText c) (litEx c) := ⟨_, Lx.int L c, (PU.int L c).pe q⟩

theorem Ev.infx {L : Lang} {q q0 ql qr : Nat} {a b : Str} {l r : Ex} {o : String} {t : Tok} {op : BOp} (ho : OpTok L o t) (ht : binop L t = some (op, q0))
    (hsep : t ≠ .sym ['('] ∧ t ≠ .sym ['['] ∧ t ≠ .sym ['.']) (hl : Ev L ql a l) (hr : Ev L qr b r) (h1 : q ≤ q0) (h2 : q0 ≤ ql) (h3 : q0 + 1 ≤ qr) (h4 : q0 = 9 → q ≤ 8) :
    Ev L q (LangSpec.infx o a b) (.bin op l r) := by
  obtain ⟨ta, la, pa⟩ := hl
  obtain ⟨tb, lb, pb⟩ := hr
  exact ⟨_, la.infx ho lb, PE.bin ht hsep pa pb h1 h2 h3 h4⟩

theorem Ev.paren {L : Lang} {q q' : Nat} {s : Str} {e : Ex} (h : Ev L q' s e) : Ev L q ("(".toList ++ s ++ ")".toList) e := by
  obtain ⟨ts, h1, h2⟩ := h
  exact ⟨_, h1.paren, (PP.paren h2).pu.pe q⟩

theorem Ev.pow {L : Lang} {q ql qr : Nat} {a b : Str} {l r : Ex} (hl : Ev L ql a l) (hr : Ev L qr b r) (h2 : 1 ≤ ql) (h3 : 2 ≤ qr) :
    Ev L q ("pow(".toList ++ a ++ ", ".toList ++ b ++ ")".toList) (.app (.name "pow".toList) (.bin .comma l r)) := by
  obtain ⟨ta, la, pa⟩ := hl
  obtain ⟨tb, lb, pb⟩ := hr
  have hc : PE L 0 (ta ++ (.sym [','] :: tb)) (.bin .comma l r) :=
    PE.bin (q0 := 1) (by cases L <;> rfl) (by decide) pa pb (by omega) h2 h3 (by omega)
  have hp : PP L [.word "pow".toList] (.name "pow".toList) := PP.name (by cases L <;> decide +kernel)
  have hx := (Lx.word (L := L) (s := "pow".toList) (isWord_lit (by decide))).call (la.comma lb)
  refine ⟨_, ?_, (hp.app hc).pu.pe q⟩
  have : "pow(".toList ++ a ++ ", ".toList ++ b ++ ")".toList = "pow".toList ++ "(".toList ++ (a ++ ", ".toList ++ b) ++ ")".toList := by
    simp
  rw [this]
  exact hx

theorem Ev.index {L : Lang} {q q' : Nat} {i : Str} {e : Ex} (a : VName) (h : Ev L q' i e) : Ev L q (LangSpec.index a.chars i) (.index (Syntax.var a) e) := by
  obtain ⟨ts, h1, h2⟩ := h
  exact ⟨_, (Lx.word (chars_word a)).index h1, ((PP.name (var_isName L a)).index h2).pu.pe q⟩

/-! ### operations -/

/-- The level of the text of a binary operation. -/
def resLevel : Lang → Ops → Nat
  | _, .Add | _, .Sub => 11
  | _, .Mul | _, .Truediv | _, .Floordiv | _, .Mod => 13
  | .python, .And => 5
  | .python, .Or => 3
  | .python, .Eq | .python, .Gt | .python, .Ge | .python, .Lt | .python, .Le => 8
  | _, _ => 14

/-- The level the operands need at least. -/
def argLevel : Lang → Ops → Nat
  | _, .Add | _, .Sub => 11
  | _, .Mul | _, .Truediv | _, .Floordiv | _, .Mod => 13
  | _, .And => 5
  | _, .Or => 3
  | .python, .Eq => 9
  | _, .Eq => 7
  | _, .Gt | _, .Ge | _, .Lt | _, .Le => 9
  | _, _ => 1

theorem Ev.bin (L : Lang) {op : Ops} (hop : Codegen.renderBin op = true) {a b : Str} {l r : Ex} (hl : Ev L (argLevel L op) a l) (hr : Ev L (argLevel L op + 1) b r) :
    Ev L (resLevel L op) (binText L op a b) (binEx L op l r) := by
  have hs := opTok_sym L
  have sep : ∀ {s : Str}, s ≠ ['('] ∧ s ≠ ['['] ∧ s ≠ ['.'] → (Tok.sym s ≠ .sym ['('] ∧ Tok.sym s ≠ .sym ['['] ∧ Tok.sym s ≠ .sym ['.']) := by
    intro s h; simpa using h
  cases op <;> first | (simp [Codegen.renderBin] at hop; done) | skip
  case Add => cases L <;> exact Ev.infx (hs "+" (by decide)) rfl (sep (by decide)) hl hr (by decide) (by decide) (by decide) (by decide)
  case Sub => cases L <;> exact Ev.infx (hs "-" (by decide)) rfl (sep (by decide)) hl hr (by decide) (by decide) (by decide) (by decide)
  case Mul => cases L <;> exact Ev.infx (hs "*" (by decide)) rfl (sep (by decide)) hl hr (by decide) (by decide) (by decide) (by decide)
  case Truediv => cases L <;> exact Ev.infx (hs "/" (by decide)) rfl (sep (by decide)) hl hr (by decide) (by decide) (by decide) (by decide)
  case Mod => cases L <;> exact Ev.infx (hs "%" (by decide)) rfl (sep (by decide)) hl hr (by decide) (by decide) (by decide) (by decide)
  case Floordiv =>
    cases L
    case python => exact Ev.infx opTok_py.1 rfl (sep (by decide)) hl hr (by decide) (by decide) (by decide) (by decide)
    all_goals exact Ev.infx (hs "/" (by decide)) rfl (sep (by decide)) hl hr (by decide) (by decide) (by decide) (by decide)
  case Pow => cases L <;> exact Ev.pow hl hr (by decide) (by decide)
  case And =>
    cases L
    case python => exact Ev.infx opTok_py.2.1 rfl (by decide) hl hr (by decide) (by decide) (by decide) (by decide)
    all_goals exact Ev.paren (Ev.infx (q := 0) (opTok_c (by decide) "&&" (by decide)) rfl (sep (by decide)) hl hr (by decide) (by decide) (by decide) (by decide))
  case Or =>
    cases L
    case python => exact Ev.infx opTok_py.2.2 rfl (by decide) hl hr (by decide) (by decide) (by decide) (by decide)
    all_goals exact Ev.paren (Ev.infx (q := 0) (opTok_c (by decide) "||" (by decide)) rfl (sep (by decide)) hl hr (by decide) (by decide) (by decide) (by decide))
  case Eq =>
    cases L
    case python => exact Ev.infx (hs "==" (by decide)) rfl (sep (by decide)) hl hr (by decide) (by decide) (by decide) (by decide)
    all_goals exact Ev.paren (Ev.infx (q := 0) (hs "==" (by decide)) rfl (sep (by decide)) hl hr (by decide) (by decide) (by decide) (by decide))
  case Gt =>
    cases L
    case python => exact Ev.infx (hs ">" (by decide)) rfl (sep (by decide)) hl hr (by decide) (by decide) (by decide) (by decide)
    all_goals exact Ev.paren (Ev.infx (q := 0) (hs ">" (by decide)) rfl (sep (by decide)) hl hr (by decide) (by decide) (by decide) (by decide))
  case Ge =>
    cases L
    case python => exact Ev.infx (hs ">=" (by decide)) rfl (sep (by decide)) hl hr (by decide) (by decide) (by decide) (by decide)
    all_goals exact Ev.paren (Ev.infx (q := 0) (hs ">=" (by decide)) rfl (sep (by decide)) hl hr (by decide) (by decide) (by decide) (by decide))
  case Lt =>
    cases L
    case python => exact Ev.infx (hs "<" (by decide)) rfl (sep (by decide)) hl hr (by decide) (by decide) (by decide) (by decide)
    all_goals exact Ev.paren (Ev.infx (q := 0) (hs "<" (by decide)) rfl (sep (by decide)) hl hr (by decide) (by decide) (by decide) (by decide))
  case Le =>
    cases L
    case python => exact Ev.infx (hs "<=" (by decide)) rfl (sep (by decide)) hl hr (by decide) (by decide) (by decide) (by decide)
    all_goals exact Ev.paren (Ev.infx (q := 0) (hs "<=" (by decide)) rfl (sep (by decide)) hl hr (by decide) (by decide) (by decide) (by decide))

theorem Lx.mathFn {s : Str} (hs : IsWord s) : Lx .python ("math.".toList ++ s) [.word "math".toList, .sym ['.'], .word s] := by
  intro r hr
  have h1 : "math.".toList ++ s ++ r = "math".toList ++ ('.' :: (s ++ r)) := by simp
  rw [h1, IsWord.lexGo (s := "math".toList) (isWord_lit (by decide))]
  have h2 : lexGo .python (.word "math".toList) ('.' :: (s ++ r)) = .word "math".toList :: lexGo .python (.sym ['.']) (s ++ r) := rfl
  obtain ⟨c, cs, rfl, hc, hd, _⟩ := id hs
  have hn : c ≠ '\n' := by rintro rfl; revert hc; decide
  have h3 : lexGo .python (.sym ['.']) (c :: cs ++ r) = .sym ['.'] :: lexGo .python .none (c :: cs ++ r) := by
    have : ['.', c] ∉ (longSyms .python).map String.toList := by
      intro hm
      have : ∀ t ∈ (longSyms .python).map String.toList, t.head? ≠ some '.' := by decide +kernel
      exact this _ hm rfl
    rw [List.cons_append, lexGo, lexGo, step_none hn]
    simp only [step, hn, if_false, List.singleton_append, this, List.nil_append]
  rw [h2, h3, Lx.word hs r hr]
  rfl

theorem Ev.un (L : Lang) {op : Ops} (hop : Codegen.renderUn op = true) {q q' : Nat} {a : Str} {e : Ex} (h : Ev L q' a e) : Ev L q (unText L op a) (unEx L op e) := by
  obtain ⟨ts, h1, h2⟩ := h
  have hneg : Ev L q ("-(".toList ++ a ++ ")".toList) (.neg e) := by
    refine ⟨.sym ['-'] :: (.sym ['('] :: (ts ++ [.sym [')']])), ?_, ((PP.paren h2).pu.neg).pe q⟩
    intro r hr
    have := h1.paren r hr
    have e1 : "-(".toList ++ a ++ ")".toList ++ r = '-' :: '(' :: (a ++ (')' :: r)) := by simp
    have e2 : "(".toList ++ a ++ ")".toList ++ r = '(' :: (a ++ (')' :: r)) := by simp
    rw [e2] at this
    rw [e1, List.cons_append, ← this]
    cases L <;> rfl
  have hc : ∀ {s : Str}, IsWord s → isName L s = true → Ev L q (s ++ "(".toList ++ a ++ ")".toList) (.app (.name s) e) := fun hs hn =>
    ⟨_, (Lx.word hs).call h1, ((PP.name hn).app h2).pu.pe q⟩
  have hm : L = .python → ∀ {s : Str}, IsWord s → Ev L q ("math.".toList ++ s ++ "(".toList ++ a ++ ")".toList) (.app (.member (.name "math".toList) s) e) := by
    rintro rfl s hs
    have hp : PP .python [.word "math".toList] (.name "math".toList) := PP.name (by decide +kernel)
    exact ⟨_, (Lx.mathFn hs).call h1, ((hp.member s).app h2).pu.pe q⟩
  cases op <;> first | (simp [Codegen.renderUn] at hop; done) | skip
  case Neg => cases L <;> exact hneg
  case Sin =>
    cases L
    case python => exact hm rfl (s := "sin".toList) (isWord_lit (by decide))
    all_goals exact hc (s := "sin".toList) (isWord_lit (by decide)) (by decide +kernel)
  case Cos =>
    cases L
    case python => exact hm rfl (s := "cos".toList) (isWord_lit (by decide))
    all_goals exact hc (s := "cos".toList) (isWord_lit (by decide)) (by decide +kernel)
  case Exp =>
    cases L
    case python => exact hm rfl (s := "exp".toList) (isWord_lit (by decide))
    all_goals exact hc (s := "exp".toList) (isWord_lit (by decide)) (by decide +kernel)
  case Log =>
    cases L
    case python => exact hm rfl (s := "log".toList) (isWord_lit (by decide))
    all_goals exact hc (s := "log".toList) (isWord_lit (by decide)) (by decide +kernel)
  case Sqrt =>
    cases L
    case python => exact hm rfl (s := "sqrt".toList) (isWord_lit (by decide))
    all_goals exact hc (s := "sqrt".toList) (isWord_lit (by decide)) (by decide +kernel)

end Whale.Syntax
