import Verif.Proofs.Scope
import Verif.Proofs.Names
import Verif.Proofs.DemoDev
import Verif.Props.Kernels
/-
C35: scoping of generated kernels and the names in them.
-/
namespace Whale.Props
open Whale Mat Hist Kern Codegen
variable {V : Type}

/-- C35: in every kernel `K` that `a.materialize()` runs, at any point of any history, the parameters are distinct, every variable is used only where it is declared in
the same or an enclosing block and as what it was declared (index, element, array), and no variable is declared while one of its name is in scope. -/
theorem C35_scoped {b : Backend V} (hb : Faithful b) {w : World V} (hr : Reachable b w) {a : Nat} (ha : Computed w.g a) (hns : NoScalarReshape w.g a)
    {f : Nat} {ins : List Nat} {sch : Schedule} {K : Kernel} (hG : Generates b.isGpu w.g a f ins sch K) : K.WellScoped := by
  obtain ⟨t, F, n, n', _, _, _, hE, _, _, hs, hK⟩ := hG.ready (hr.inv hb).winv.wf ha hns
  exact Scp.kernel_scope hE hs hK

/-- C35: distinct variables of a kernel have distinct names in its text. -/
theorem C35_names {x y : VName} (h : x.render = y.render) : x = y := render_inj h

/-- What the text of a name looks like. -/
theorem name_shape : ∀ v : VName, v.chars ∈ [['a','c','c'], ['o','u','t'], ['i'], ['j'], ['k'], ['l'], ['m'], ['n'], ['p'], ['q'], ['r','i'], ['r','j'], ['r','k'], ['r','l'],
    ['r','m'], ['r','n'], ['r','p'], ['r','q']] ∨ ∃ c, v.chars.getLast? = some c ∧ (c.isDigit = true ∨ ((c = 'o' ∨ c = 'i') ∧ v.chars.dropLast.getLast? = some '_'))
  | .loop r p => by
    by_cases h : p < 8
    · left
      have := loopLetter_small p h
      simp only [List.mem_cons, List.not_mem_nil, or_false] at this
      rcases this with h | h | h | h | h | h | h | h <;> cases r <;> simp [VName.chars, h]
    · right
      have hl := loopLetter_big h
      obtain ⟨c, hc⟩ : ∃ c, (Nat.toDigits 10 p).getLast? = some c := Option.ne_none_iff_exists'.1 (by simp)
      refine ⟨c, ?_, .inl (Nat.isDigit_of_mem_toDigits (b := 10) (n := p) (by decide) (by decide) (List.mem_of_getLast? hc))⟩
      cases r <;> simp [VName.chars, hl, List.getLast?_cons, hc]
  | .splitO v => .inr ⟨'o', by simp [VName.chars], .inr ⟨.inl rfl, by
      have : (VName.splitO v).chars = (v.chars ++ ['_', '_']) ++ ['o'] := by simp [VName.chars]
      rw [this, List.dropLast_concat]; simp⟩⟩
  | .splitI v => .inr ⟨'i', by simp [VName.chars], .inr ⟨.inr rfl, by
      have : (VName.splitI v).chars = (v.chars ++ ['_', '_']) ++ ['i'] := by simp [VName.chars]
      rw [this, List.dropLast_concat]; simp⟩⟩
  | .tmp n => by
    right
    obtain ⟨c, hc⟩ : ∃ c, (Nat.toDigits 10 n).getLast? = some c := Option.ne_none_iff_exists'.1 (by simp)
    refine ⟨c, ?_, .inl (Nat.isDigit_of_mem_toDigits (b := 10) (n := n) (by decide) (by decide) (List.mem_of_getLast? hc))⟩
    simp [VName.chars, List.getLast?_cons, hc]
  | .acc => .inl (by decide)
  | .out => .inl (by decide)
  | .arg f n => by
    right
    obtain ⟨c, hc⟩ : ∃ c, (Nat.toDigits 10 n).getLast? = some c := Option.ne_none_iff_exists'.1 (by simp)
    refine ⟨c, ?_, .inl (Nat.isDigit_of_mem_toDigits (b := 10) (n := n) (by decide) (by decide) (List.mem_of_getLast? hc))⟩
    cases f <;> simp [VName.chars, List.getLast?_cons, hc]

/-- C35: no variable of a kernel is called like a keyword or another identifier of the target languages. -/
theorem C35_reserved (x : VName) : x.render ∉ reserved := by
  intro h
  have hs := name_shape x
  have hx : x.chars = x.render.toList := by simp [VName.render]
  rw [hx] at hs
  revert h hs
  generalize x.render = r
  intro h hs
  have : ∀ r ∈ reserved, ¬ (r.toList ∈ [['a','c','c'], ['o','u','t'], ['i'], ['j'], ['k'], ['l'], ['m'], ['n'], ['p'], ['q'], ['r','i'], ['r','j'], ['r','k'], ['r','l'],
      ['r','m'], ['r','n'], ['r','p'], ['r','q']]) ∧ (match r.toList.getLast? with
        | none => true
        | some c => !(c.isDigit || ((c == 'o' || c == 'i') && r.toList.dropLast.getLast? == some '_'))) = true := by decide +kernel
  obtain ⟨h1, h2⟩ := this r h
  rcases hs with hs | ⟨c, hc, hs⟩
  · exact h1 hs
  · rw [hc] at h2
    simp only [Bool.not_eq_true', Bool.or_eq_false_iff, Bool.and_eq_false_iff] at h2
    rcases hs with hs | ⟨hs, ht⟩
    · rw [h2.1] at hs; cases hs
    · rcases h2.2 with h | h
      · rcases hs with rfl | rfl <;> simp at h
      · rw [ht] at h; simp at h

/-- The hypotheses are met by the GPU kernel of a reduction (a split loop, an accumulator, temporaries). -/
example : Reachable Demo.cuda (Demo.afterOn Demo.cuda kdemo) ∧ Computed (Demo.afterOn Demo.cuda kdemo).g 4 ∧ NoScalarReshape (Demo.afterOn Demo.cuda kdemo).g 4 ∧
    (∃ ins sch K, Generates Demo.cuda.isGpu (Demo.afterOn Demo.cuda kdemo).g 4 2 ins sch K) ∧
    ((genOf true (Demo.afterOn Demo.cuda kdemo).g 4 2).map fun r => r.2.2.names.dedup.map VName.render) =
      some ["j__o", "j__i", "buf_0", "ri", "out", "i", "j", "acc"] :=
  ⟨Demo.reachOn Demo.cuda_faithful (by decide +kernel), ⟨by decide +kernel, by decide +kernel, by decide +kernel⟩,
    noScalarReshape_of ((Demo.reachOn (cs := kdemo) Demo.cuda_faithful (by decide +kernel)).inv Demo.cuda_faithful).winv.wf (by decide +kernel) (by decide +kernel), genOf_exists (by decide +kernel),
    by decide +kernel⟩

/-- `WellScoped` is not trivial: it rejects kernels with undeclared, redeclared or out-of-scope variables. -/
example : ¬ (Kernel.mk [(.out, .int64)] (.store (.var (.tmp 0)) (.lit 1))).WellScoped ∧
    ¬ (Kernel.mk [(.out, .int64)] (.seq (.initI (.tmp 0) (.lit 0)) (.initI (.tmp 0) (.lit 0)))).WellScoped ∧
    ¬ (Kernel.mk [(.out, .int64)] (.seq (.loop .sequential (.loop false 0) 3 (.initI (.tmp 0) (.lit 0))) (.store (.var (.tmp 0)) (.lit 1)))).WellScoped ∧
    ¬ (Kernel.mk [(.out, .int64), (.out, .int64)] .skip).WellScoped ∧
    (Kernel.mk [(.out, .int64)] (.loop .sequential (.loop false 0) 3 (.seq (.initI (.tmp 0) (.var (.loop false 0))) (.store (.var (.tmp 0)) (.lit 1))))).WellScoped := by
  unfold Kernel.WellScoped
  decide +kernel

end Whale.Props
