import Verif.Model.Text
import Verif.Proofs.MatLemmas
import Verif.Proofs.KernelCpu
/-
The text of a kernel is its statement tree, printed.
-/
namespace Whale
open Codegen LangSpec Text
variable {V : Type}

/-- Text of a binary / unary operation that can be rendered. -/
def binText (L : Lang) (op : Ops) (a b : Str) : Str := match LangSpec.bin L op a b with
  | .ok s => s
  | .error _ => []
def unText (L : Lang) (op : Ops) (a : Str) : Str := match LangSpec.un L op a with
  | .ok s => s
  | .error _ => []

theorem bin_ok (L : Lang) {op : Ops} (h : renderBin op = true) (a b : Str) : LangSpec.bin L op a b = .ok (binText L op a b) := by
  cases op <;> first | (simp [renderBin] at h; done) | (cases L <;> rfl)

theorem un_ok (L : Lang) {op : Ops} (h : renderUn op = true) (a : Str) : LangSpec.un L op a = .ok (unText L op a) := by
  cases op <;> first | (simp [renderUn] at h; done) | (cases L <;> rfl)

def KI.text (L : Lang) : KI → Str
  | .var x => x.chars
  | .lit c => intText c
  | .bin op l r => binText L op (l.text L) (r.text L)

def KD.text (L : Lang) : KD → Str
  | .var x => x.chars
  | .lit c => intText c
  | .zero true => "0".toList
  | .zero false => "0.0".toList
  | .un op e => unText L op (e.text L)
  | .bin op l r => binText L op (l.text L) (r.text L)
  | .read a i => index a.chars (i.text L)

/-- An indented line. -/
def pad (ind : Nat) (s : Str) : Str := List.replicate (4 * ind) ' ' ++ s

/-- The lines that open a loop. -/
def loopLines (L : Lang) (m : LoopExec) (x : Str) (n : Int) : List Str := match loopStart L m x n with
  | .ok (l, _) => l
  | .error _ => []

def Stmt.lines (L : Lang) : Nat → Stmt → List Str
  | _, .skip => []
  | i, .seq s t => s.lines L i ++ t.lines L i
  | i, .initI x e => [pad i (init L .int64 x.chars (e.text L))]
  | i, .initD dt x e => [pad i (init L dt x.chars (e.text L))]
  | i, .set x e => [pad i (assign L x.chars (e.text L))]
  | i, .store j e => [pad i (assign L (index "out".toList (j.text L)) (e.text L))]
  | i, .loop m x n b => (loopLines L m x.chars n).map (pad i) ++ (b.lines L (i + 1) ++ [pad i (blockEnd L)])
  | i, .ite c t f => pad i (ifStart L (c.text L)) :: (t.lines L (i + 1) ++ (pad i (else_ L) :: (f.lines L (i + 1) ++ [pad i (blockEnd L)])))
  | i, .guardRet c => [pad i (ifStart L (c.text L)), pad (i + 1) (ret L), pad i (blockEnd L)]
  | i, .gpuIdx x th d => [pad i (init L .int64 x.chars ((if th then "threadIdx.".toList else "blockIdx.".toList) ++ dimText d))]

/-- The execution modes a language has a form for. -/
def modeOK : Lang → LoopExec → Bool
  | _, .sequential => true
  | _, .unroll _ => true
  | .cuda, .gpuBlock _ | .cuda, .gpuThread _ => true
  | .cuda, _ => false
  | _, .parallel | _, .vectorize => true
  | _, _ => false

namespace Text

theorem writeln_mk (b : List Str) (i n : Nat) (s : Str) : W.writeln ⟨b, i, n⟩ s = ⟨b ++ [pad i s], i, n⟩ := rfl
theorem nest_mk (b : List Str) (i n : Nat) : W.nest ⟨b, i, n⟩ = ⟨b, i + 1, n⟩ := rfl
theorem unnest_mk (b : List Str) (i n : Nat) : W.unnest ⟨b, i + 1, n⟩ = ⟨b, i, n⟩ := rfl
theorem tmpvar_mk (b : List Str) (i n : Nat) : W.tmpvar ⟨b, i, n⟩ = ((VName.tmp n).chars, ⟨b, i, n + 1⟩) := rfl

theorem writes_mk : ∀ (l : List Str) (b : List Str) (i n : Nat), W.writes ⟨b, i, n⟩ l = ⟨b ++ l.map (pad i), i, n⟩
  | [], b, i, n => by simp [W.writes]
  | s :: l, b, i, n => by
    rw [show W.writes ⟨b, i, n⟩ (s :: l) = W.writes (W.writeln ⟨b, i, n⟩ s) l from rfl, writeln_mk, writes_mk l]
    simp

theorem renderI_tree (L : Lang) : ∀ {e : IExpr} {n n' : Nat} {s : Stmt} {k : KI}, genI e n = .ok (s, k, n') →
    ∀ b i, renderI L e ⟨b, i, n⟩ = .ok (k.text L, ⟨b ++ s.lines L i, i, n'⟩)
  | .index l, n, n', s, k, h, b, i => by
    simp only [genI, pure, Except.pure, Except.ok.injEq, Prod.mk.injEq] at h
    obtain ⟨rfl, rfl, rfl⟩ := h
    simp [renderI, KI.text, Stmt.lines, pure, Except.pure]
  | .const c, n, n', s, k, h, b, i => by
    simp only [genI, pure, Except.pure, Except.ok.injEq, Prod.mk.injEq] at h
    obtain ⟨rfl, rfl, rfl⟩ := h
    simp [renderI, KI.text, Stmt.lines, pure, Except.pure]
  | .bin op l r, n, n', s, k, h, b, i => by
    simp only [genI] at h
    by_cases hop : renderBin op = false
    · simp [hop, throw, throwThe, MonadExceptOf.throw, bind, Except.bind] at h
    rw [if_neg hop] at h
    obtain ⟨⟨s1, a, n1⟩, h1, h⟩ := except_bind_ok h
    obtain ⟨⟨s2, c, n2⟩, h2, h⟩ := except_bind_ok h
    simp only [pure, Except.pure, Except.ok.injEq, Prod.mk.injEq] at h
    obtain ⟨rfl, rfl, rfl⟩ := h
    simp only [renderI, renderI_tree L h1, renderI_tree L h2, if_neg hop, bind, Except.bind, pure, Except.pure, tmpvar_mk, writeln_mk, bin_ok L (by simpa using hop),
      KI.text, Stmt.lines, List.append_assoc]

theorem renderIs_tree (L : Lang) : ∀ {es : List IExpr} {n n' : Nat} {s : Stmt} {ks : List KI}, genIs es n = .ok (s, ks, n') →
    ∀ b i, renderIs L es ⟨b, i, n⟩ = .ok (ks.map (KI.text L), ⟨b ++ s.lines L i, i, n'⟩)
  | [], n, n', s, k, h, b, i => by
    simp only [genIs, pure, Except.pure, Except.ok.injEq, Prod.mk.injEq] at h
    obtain ⟨rfl, rfl, rfl⟩ := h
    simp [renderIs, Stmt.lines, pure, Except.pure]
  | e :: es, n, n', s, k, h, b, i => by
    simp only [genIs] at h
    obtain ⟨⟨s1, a, n1⟩, h1, h⟩ := except_bind_ok h
    obtain ⟨⟨s2, c, n2⟩, h2, h⟩ := except_bind_ok h
    simp only [pure, Except.pure, Except.ok.injEq, Prod.mk.injEq] at h
    obtain ⟨rfl, rfl, rfl⟩ := h
    simp only [renderIs, renderI_tree L h1, renderIs_tree L h2, bind, Except.bind, pure, Except.pure, Stmt.lines, List.append_assoc, List.map_cons]

theorem sumText_tree (L : Lang) : ∀ (ts : List KI) (t : KI), sumText (t.text L) (ts.map (KI.text L)) = (sumKI t ts).text L
  | [], _ => rfl
  | u :: ts, t => by
    have := sumText_tree L ts (.bin .Add t u)
    rw [show (KI.bin .Add t u).text L = add (t.text L) (u.text L) by cases L <;> rfl] at this
    exact this

theorem mul_text (L : Lang) (a : KI) (st : Int) : (KI.bin .Mul a (.lit st)).text L = mul (a.text L) (intText st) := by cases L <;> rfl

theorem flatText_tree (L : Lang) (sh : List Int) (ks : List KI) : flatText sh (ks.map (KI.text L)) = (flatIdx sh ks).text L := by
  unfold flatText flatIdx
  split
  · rfl
  · rw [List.zipWith_map_left]
    have : List.zipWith (fun a st => mul (KI.text L a) (intText st)) ks (stridesFromShape sh) =
        (List.zipWith (fun a st => KI.bin .Mul a (.lit st)) ks (stridesFromShape sh)).map (KI.text L) := by
      rw [List.map_zipWith]; simp only [mul_text]
    rw [this]
    cases List.zipWith (fun a st => KI.bin .Mul a (.lit st)) ks (stridesFromShape sh) with
    | nil => rfl
    | cons t ts => exact sumText_tree L ts t

theorem bufText_tree (L : Lang) (o : Int) (st : List Int) (ks : List KI) : bufText o st (ks.map (KI.text L)) = (bufIdx o st ks).text L := by
  unfold bufText bufIdx
  rw [← sumText_tree L]
  congr 1
  rw [List.map_map, List.zip_map_left, List.filter_map, List.map_map]
  simp [mul_text, Function.comp_def]

def closes (L : Lang) : Nat → Nat → List Str
  | 0, _ => []
  | k + 1, i => pad (i + k) (blockEnd L) :: closes L k i

theorem closes_snoc (L : Lang) : ∀ (k i : Nat), closes L (k + 1) i = closes L k (i + 1) ++ [pad i (blockEnd L)]
  | 0, i => rfl
  | k + 1, i => by
    rw [closes, closes_snoc L k i, closes, show i + (k + 1) = i + 1 + k by omega]; rfl

theorem closeLoops_mk (L : Lang) : ∀ (k : Nat) (b : List Str) (i n : Nat), closeLoops L k ⟨b, i + k, n⟩ = ⟨b ++ closes L k i, i, n⟩
  | 0, b, i, n => by simp [closeLoops, closes]
  | k + 1, b, i, n => by
    rw [closeLoops, show i + (k + 1) = (i + k) + 1 from rfl, unnest_mk, writeln_mk, closeLoops_mk L k]
    simp [closes]

def redOpens (L : Lang) : List LoopIndex → Nat → List Str
  | [], _ => []
  | l :: ls, i => pad i (seqLoop L l.name.chars l.extent) :: redOpens L ls (i + 1)

theorem openRed_mk (L : Lang) : ∀ (ls : List LoopIndex) (b : List Str) (i n : Nat), openRed L ls ⟨b, i, n⟩ = ⟨b ++ redOpens L ls i, i + ls.length, n⟩
  | [], b, i, n => by simp [openRed, redOpens]
  | l :: ls, b, i, n => by
    rw [openRed, writeln_mk, nest_mk, openRed_mk L ls]
    simp [redOpens]; omega

theorem redLoops_lines (L : Lang) (body : Stmt) : ∀ (ls : List LoopIndex) (i : Nat),
    (redLoops ls body).lines L i = redOpens L ls i ++ (body.lines L (i + ls.length) ++ closes L ls.length i)
  | [], i => by simp [redLoops, redOpens, closes]
  | l :: ls, i => by
    have hl : loopLines L .sequential l.name.chars l.extent = [seqLoop L l.name.chars l.extent] := by cases L <;> rfl
    rw [redLoops, Stmt.lines, redLoops_lines L body ls (i + 1), hl, List.length_cons, closes_snoc, show i + 1 + ls.length = i + (ls.length + 1) by omega]
    simp [redOpens]

theorem renderD_tree (L : Lang) {g : Graph V} {tbl : Tbl} {args : Args} {dt : DType} : ∀ {e : DExpr} {n n' : Nat} {s : Stmt} {k : KD},
    genD g tbl args dt e n = .ok (s, k, n') → ∀ b i, renderD L g tbl args dt e ⟨b, i, n⟩ = .ok (k.text L, ⟨b ++ s.lines L i, i, n'⟩)
  | .const c, n, n', s, k, h, b, i => by
    simp only [genD, pure, Except.pure, Except.ok.injEq, Prod.mk.injEq] at h
    obtain ⟨rfl, rfl, rfl⟩ := h
    simp [renderD, KD.text, Stmt.lines, pure, Except.pure]
  | .un op e, n, n', s, k, h, b, i => by
    simp only [genD] at h
    by_cases hop : renderUn op = false
    · simp [hop, throw, throwThe, MonadExceptOf.throw, bind, Except.bind] at h
    rw [if_neg hop] at h
    obtain ⟨⟨s1, a, n1⟩, h1, h⟩ := except_bind_ok h
    simp only [pure, Except.pure, Except.ok.injEq, Prod.mk.injEq] at h
    obtain ⟨rfl, rfl, rfl⟩ := h
    simp only [renderD, renderD_tree L h1, if_neg hop, bind, Except.bind, pure, Except.pure, tmpvar_mk, writeln_mk, un_ok L (by simpa using hop),
      KD.text, Stmt.lines, List.append_assoc]
  | .bin op l r, n, n', s, k, h, b, i => by
    simp only [genD] at h
    by_cases hop : renderBin op = false
    · simp [hop, throw, throwThe, MonadExceptOf.throw, bind, Except.bind] at h
    rw [if_neg hop] at h
    obtain ⟨⟨s1, a, n1⟩, h1, h⟩ := except_bind_ok h
    obtain ⟨⟨s2, c, n2⟩, h2, h⟩ := except_bind_ok h
    simp only [pure, Except.pure, Except.ok.injEq, Prod.mk.injEq] at h
    obtain ⟨rfl, rfl, rfl⟩ := h
    simp only [renderD, renderD_tree L h1, renderD_tree L h2, if_neg hop, bind, Except.bind, pure, Except.pure, tmpvar_mk, writeln_mk, bin_ok L (by simpa using hop),
      KD.text, Stmt.lines, List.append_assoc]
  | .tern op c t f, n, n', s, k, h, b, i => by
    simp only [genD] at h
    by_cases hop : op ≠ .Where
    · simp [hop, throw, throwThe, MonadExceptOf.throw, bind, Except.bind] at h
    rw [if_neg hop] at h
    obtain ⟨⟨s1, a, n1⟩, h1, h⟩ := except_bind_ok h
    obtain ⟨⟨s2, x, n2⟩, h2, h⟩ := except_bind_ok h
    obtain ⟨⟨s3, y, n3⟩, h3, h⟩ := except_bind_ok h
    simp only [pure, Except.pure, Except.ok.injEq, Prod.mk.injEq] at h
    obtain ⟨rfl, rfl, rfl⟩ := h
    have hz : (if dt.isInt = true then "0".toList else "0.0".toList) = (KD.zero dt.isInt).text L := by cases dt.isInt <;> rfl
    simp only [renderD, renderI_tree L h1, renderD_tree L h2, renderD_tree L h3, if_neg hop, bind, Except.bind, pure, Except.pure, tmpvar_mk, writeln_mk, nest_mk, unnest_mk,
      KD.text, Stmt.lines, List.append_assoc, hz, List.cons_append, List.nil_append]
  | .red op e rs, n, n', s, k, h, b, i => by
    simp only [genD] at h
    obtain ⟨⟨s1, a, n1⟩, h1, h⟩ := except_bind_ok h
    by_cases hop : op ≠ .Sum
    · simp [hop, throw, throwThe, MonadExceptOf.throw, bind, Except.bind] at h
    rw [if_neg hop] at h
    simp only [pure, Except.pure, Except.ok.injEq, Prod.mk.injEq] at h
    obtain ⟨rfl, rfl, rfl⟩ := h
    have hz : (KD.zero true).text L = "0".toList := rfl
    have ha : (KD.bin .Add (.var .acc) a).text L = add "acc".toList (a.text L) := by cases L <;> rfl
    simp only [renderD, writeln_mk, openRed_mk, renderD_tree L h1, bind, Except.bind, if_neg hop, pure, Except.pure, closeLoops_mk, Stmt.lines, redLoops_lines, hz, ha,
      List.append_assoc]
    rfl
  | .func f idx, n, n', s, k, h, b, i => by
    simp only [genD] at h
    obtain ⟨a, h1, h⟩ := except_bind_ok h
    obtain ⟨⟨s1, ks, n1⟩, h2, h⟩ := except_bind_ok h
    cases hF : tbl f with
    | none => rw [hF] at h; simp [throw, throwThe, MonadExceptOf.throw] at h
    | some F =>
      rw [hF] at h
      simp only [pure, Except.pure, Except.ok.injEq, Prod.mk.injEq] at h
      obtain ⟨rfl, rfl, rfl⟩ := h
      simp only [renderD, h1, renderIs_tree L h2, bind, Except.bind, hF, pure, Except.pure, flatText_tree, KD.text]
  | .buf c idx, n, n', s, k, h, b, i => by
    simp only [genD] at h
    obtain ⟨a, h1, h⟩ := except_bind_ok h
    obtain ⟨⟨s1, ks, n1⟩, h2, h⟩ := except_bind_ok h
    simp only [pure, Except.pure, Except.ok.injEq, Prod.mk.injEq] at h
    obtain ⟨rfl, rfl, rfl⟩ := h
    simp only [renderD, h1, renderIs_tree L h2, bind, Except.bind, pure, Except.pure, bufText_tree, KD.text]

theorem renderLoops_tree (L : Lang) : ∀ {ls : List LoopSched}, (∀ l ∈ ls, l.kind = .spatial → modeOK L l.exec = true) → ∀ (b : List Str) (i n : Nat),
    ∃ k opens, renderLoops L ls ⟨b, i, n⟩ = .ok (k, ⟨b ++ opens, i + k, n⟩) ∧
      ∀ body, (genLoops ls body).lines L i = opens ++ (body.lines L (i + k) ++ closes L k i)
  | [], _, b, i, n => ⟨0, [], by simp [renderLoops, pure, Except.pure], fun body => by simp [genLoops, closes]⟩
  | l :: ls, hm, b, i, n => by
    have hm' : ∀ l ∈ ls, l.kind = .spatial → modeOK L l.exec = true := fun l hl => hm l (List.mem_cons_of_mem _ hl)
    by_cases hk : l.kind ≠ .spatial
    · obtain ⟨k, opens, h1, h2⟩ := renderLoops_tree L hm' b i n
      exact ⟨k, opens, by rw [renderLoops, if_pos hk, h1], fun body => by rw [genLoops, if_pos hk, h2]⟩
    · have hmode := hm l List.mem_cons_self (Decidable.not_not.1 hk)
      have key : (∃ lns, loopStart L l.exec l.lv.name.chars l.lv.extent = .ok (lns, true) ∧
          ∀ body, genLoops (l :: ls) body = .loop l.exec l.lv.name l.lv.extent (genLoops ls body)) ∨
          (∃ ln th d, loopStart L l.exec l.lv.name.chars l.lv.extent = .ok ([ln], false) ∧
          (∀ body, genLoops (l :: ls) body = .seq (.gpuIdx l.lv.name th d) (genLoops ls body)) ∧ (Stmt.gpuIdx l.lv.name th d).lines L i = [pad i ln]) := by
        cases hx : l.exec <;> simp only [hx] at hmode
        case sequential => exact .inl ⟨[seqLoop L l.lv.name.chars l.lv.extent], by cases L <;> rfl, fun body => by simp [genLoops, hk, hx]⟩
        case parallel => cases L <;> first | (simp [modeOK] at hmode; done) | exact .inl ⟨_, rfl, fun body => by simp [genLoops, hk, hx]⟩
        case vectorize => cases L <;> first | (simp [modeOK] at hmode; done) | exact .inl ⟨_, rfl, fun body => by simp [genLoops, hk, hx]⟩
        case unroll => cases L <;> exact .inl ⟨_, rfl, fun body => by simp [genLoops, hk, hx]⟩
        case gpuBlock d => cases L <;> first | (simp [modeOK] at hmode; done) | exact .inr ⟨_, false, d, rfl, fun body => by simp [genLoops, hk, hx], rfl⟩
        case gpuThread d => cases L <;> first | (simp [modeOK] at hmode; done) | exact .inr ⟨_, true, d, rfl, fun body => by simp [genLoops, hk, hx], rfl⟩
      rcases key with ⟨lns, h, hb⟩ | ⟨ln, th, d, h, hb, hl⟩
      · obtain ⟨k, opens, h1, h2⟩ := renderLoops_tree L hm' (b ++ lns.map (pad i)) (i + 1) n
        refine ⟨k + 1, lns.map (pad i) ++ opens, ?_, fun body => ?_⟩
        · rw [renderLoops, if_neg hk]
          simp only [h, bind, Except.bind, writes_mk, if_true, nest_mk, h1, pure, Except.pure, List.append_assoc, show i + 1 + k = i + (k + 1) by omega]
        · rw [hb, Stmt.lines, h2, closes_snoc, loopLines, h, show i + 1 + k = i + (k + 1) by omega]
          simp
      · obtain ⟨k, opens, h1, h2⟩ := renderLoops_tree L hm' (b ++ [pad i ln]) i n
        refine ⟨k, [pad i ln] ++ opens, ?_, fun body => ?_⟩
        · rw [renderLoops, if_neg hk]
          simp only [h, bind, Except.bind, writes_mk, Bool.false_eq_true, if_false, h1, pure, Except.pure, List.append_assoc, List.map_cons, List.map_nil]
        · rw [hb, Stmt.lines, h2, hl]
          simp

theorem splitLines_tree (L : Lang) : ∀ (sp : List SplitLoop) (b : List Str) (i n : Nat), splitLines L sp ⟨b, i, n⟩ = ⟨b ++ (splitInits sp).lines L i, i, n⟩
  | [], b, i, n => by simp [splitLines, splitInits, Stmt.lines]
  | sp :: r, b, i, n => by
    have : (KI.bin .Add (.bin .Mul (.var sp.o.name) (.lit sp.factor)) (.var sp.i.name)).text L = add (mul sp.o.name.chars (intText sp.factor)) sp.i.name.chars := by
      cases L <;> rfl
    rw [splitLines, writeln_mk, splitLines_tree L r, splitInits]
    simp only [Stmt.lines, this, List.append_assoc]

theorem guardLines_tree (L : Lang) : ∀ (sp : List SplitLoop) (b : List Str) (i n : Nat), guardLines L sp ⟨b, i, n⟩ = ⟨b ++ (splitGuards sp).lines L i, i, n⟩
  | [], b, i, n => by simp [guardLines, splitGuards, Stmt.lines]
  | sp :: r, b, i, n => by
    have : (KI.bin .Le (.lit sp.orig.extent) (.var sp.orig.name)).text L = le L (intText sp.orig.extent) sp.orig.name.chars := by cases L <;> rfl
    rw [guardLines, splitGuards]
    by_cases hg : sp.tailGuard = true
    · rw [if_pos hg, if_pos hg]
      simp only [writeln_mk, nest_mk, unnest_mk, guardLines_tree L r, Stmt.lines, this, List.append_assoc, List.cons_append, List.nil_append]
    · rw [if_neg hg, if_neg hg, guardLines_tree L r]

/-- The text of a kernel is its statement tree, printed. -/
theorem codegen_tree (L : Lang) (name : Str) {g : Graph V} {tbl : Tbl} {F : Func} {sch : Schedule} {args : Args} {n n' : Nat} {K : Kernel}
    (hm : ∀ l ∈ sch.loops, l.kind = .spatial → modeOK L l.exec = true) (h : Codegen.codegen g tbl F sch args n = .ok (K, n')) :
    Text.codegen L name g tbl F sch args n = .ok (join ['\n'] (imports L ++ (kernStart L name (K.params.map fun p => (p.1.chars, p.2)) :: (K.body.lines L 1 ++ [blockEnd L]))), n') := by
  simp only [Codegen.codegen] at h
  obtain ⟨⟨s, k, n1⟩, h1, h⟩ := except_bind_ok h
  simp only [pure, Except.pure, Except.ok.injEq, Prod.mk.injEq] at h
  obtain ⟨rfl, rfl⟩ := h
  have hp : ∀ l : List Str, l.map (pad 0) = l := fun l => by
    have : pad 0 = id := by funext s; rfl
    rw [this, List.map_id]
  have hp0 : ∀ s, pad 0 s = s := fun s => rfl
  obtain ⟨kk, opens, hl, hb⟩ := renderLoops_tree L hm (imports L ++ [kernStart L name ((params g tbl args F.outDtype).map fun p => (p.1.chars, p.2))]) 1 n
  have hf : flatText F.outShape (F.outLoops.map (·.name.chars)) = (flatIdx F.outShape (F.outLoops.map (fun l => KI.var l.name))).text L := by
    rw [← flatText_tree, List.map_map]; rfl
  have unnest1 : ∀ b n, W.unnest ⟨b, 1, n⟩ = ⟨b, 0, n⟩ := fun _ _ => rfl
  simp only [Text.codegen, writes_mk, writeln_mk, nest_mk, hp, hp0, List.nil_append, Nat.zero_add, hl, bind, Except.bind, splitLines_tree, guardLines_tree,
    renderD_tree L h1, hf, closeLoops_mk, unnest1, pure, Except.pure, hb, Stmt.lines, List.append_assoc, List.cons_append]

end Text
end Whale
