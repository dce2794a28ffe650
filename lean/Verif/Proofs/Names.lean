import Verif.Model.Names
/-
The texts of the names in generated kernels are pairwise distinct.
-/
namespace Whale

theorem digits_inj {a b : Nat} (h : Nat.toDigits 10 a = Nat.toDigits 10 b) : a = b := by
  have := congrArg (fun l => Nat.ofDigitChars 10 l 0) h
  simpa using this

theorem digits_count (n : Nat) : (Nat.toDigits 10 n).count '_' = 0 := List.count_eq_zero.2 Nat.underscore_not_in_toDigits

theorem digit_head {n : Nat} {c : Char} {l : List Char} (h : Nat.toDigits 10 n = c :: l) : c.isDigit = true :=
  Nat.isDigit_of_mem_toDigits (b := 10) (n := n) (by decide) (by decide) (by rw [h]; simp)

/-- A name that is not half of a split loop. -/
def VName.base : VName → Bool
  | .splitO _ | .splitI _ => false
  | _ => true

theorem loopLetter_cases (i : Nat) : (∃ h : i < 8, loopLetter i = ["ijklmnpq".toList[i]'(by simpa using h)]) ∨ loopLetter i = 'v' :: Nat.toDigits 10 i := by
  unfold loopLetter
  by_cases h : i < 8
  · left
    refine ⟨h, ?_⟩
    have : i < "ijklmnpq".toList.length := by simpa using h
    rw [List.getElem?_eq_getElem this]
  · right
    have : "ijklmnpq".toList.length ≤ i := by simpa using Nat.le_of_not_lt h
    rw [List.getElem?_eq_none this]

theorem loopLetter_small : ∀ i < 8, loopLetter i ∈ [['i'], ['j'], ['k'], ['l'], ['m'], ['n'], ['p'], ['q']] := by decide
theorem loopLetter_small_inj : ∀ i < 8, ∀ j < 8, loopLetter i = loopLetter j → i = j := by decide
theorem loopLetter_big {i : Nat} (h : ¬ i < 8) : loopLetter i = 'v' :: Nat.toDigits 10 i := by
  rcases loopLetter_cases i with ⟨h', _⟩ | h'
  · exact absurd h' h
  · exact h'

theorem loopLetter_inj {i j : Nat} (h : loopLetter i = loopLetter j) : i = j := by
  by_cases hi : i < 8 <;> by_cases hj : j < 8
  · exact loopLetter_small_inj i hi j hj h
  · have := loopLetter_small i hi
    rw [h, loopLetter_big hj] at this
    simp at this
  · have := loopLetter_small j hj
    rw [← h, loopLetter_big hi] at this
    simp at this
  · rw [loopLetter_big hi, loopLetter_big hj] at h
    simp only [List.cons.injEq, true_and] at h
    exact digits_inj h

theorem loopLetter_head (i : Nat) : ∃ c l, loopLetter i = c :: l ∧ c ∈ ['i', 'j', 'k', 'l', 'm', 'n', 'p', 'q', 'v'] := by
  by_cases hi : i < 8
  · have := loopLetter_small i hi
    simp only [List.mem_cons, List.not_mem_nil, or_false] at this
    rcases this with h | h | h | h | h | h | h | h <;> exact ⟨_, _, h, by decide⟩
  · exact ⟨_, _, loopLetter_big hi, by decide⟩

theorem loopLetter_count (i : Nat) : (loopLetter i).count '_' = 0 := by
  by_cases hi : i < 8
  · have := loopLetter_small i hi
    simp only [List.mem_cons, List.not_mem_nil, or_false] at this
    rcases this with h | h | h | h | h | h | h | h <;> rw [h] <;> decide
  · rw [loopLetter_big hi, List.count_cons, digits_count]; decide

theorem base_count {v : VName} (h : v.base = true) : v.chars.count '_' ≤ 1 := by
  cases v with
  | loop r p => cases r <;> simp [VName.chars, loopLetter_count, List.count_cons]
  | splitO v => cases h
  | splitI v => cases h
  | tmp n => simp [VName.chars, digits_count, List.count_cons]
  | acc => decide
  | out => decide
  | arg f i => cases f <;> simp [VName.chars, digits_count, List.count_cons]

theorem splitO_count (v : VName) : 2 ≤ (VName.splitO v).chars.count '_' := by
  simp only [VName.chars, List.count_append]
  have : "__o".toList.count '_' = 2 := by decide
  omega

theorem splitI_count (v : VName) : 2 ≤ (VName.splitI v).chars.count '_' := by
  simp only [VName.chars, List.count_append]
  have : "__i".toList.count '_' = 2 := by decide
  omega

theorem base_inj {v w : VName} (hv : v.base = true) (hw : w.base = true) (h : v.chars = w.chars) : v = w := by
  have hl := loopLetter_head
  cases v with
  | splitO v => cases hv
  | splitI v => cases hv
  | loop r p =>
    obtain ⟨c, l, e, hc⟩ := hl p
    cases w with
    | splitO v => cases hw
    | splitI v => cases hw
    | loop r' p' =>
      obtain ⟨c', l', e', hc'⟩ := hl p'
      cases r <;> cases r'
      · rw [loopLetter_inj (i := p) (j := p') (by simpa [VName.chars] using h)]
      · simp [VName.chars, e] at h; rw [h.1] at hc; simp at hc
      · simp [VName.chars, e'] at h; rw [← h.1] at hc'; simp at hc'
      · rw [loopLetter_inj (i := p) (j := p') (by simpa [VName.chars] using h)]
    | tmp n => cases r <;> simp [VName.chars, e] at h <;> (try (rw [h.1] at hc; simp at hc))
    | acc => cases r <;> simp [VName.chars, e] at h <;> (try (rw [h.1] at hc; simp at hc))
    | out => cases r <;> simp [VName.chars, e] at h <;> (try (rw [h.1] at hc; simp at hc))
    | arg f i => cases r <;> cases f <;> simp [VName.chars, e] at h <;> (try (rw [h.1] at hc; simp at hc))
  | tmp n =>
    cases w with
    | splitO v => cases hw
    | splitI v => cases hw
    | loop r' p' =>
      obtain ⟨c, l, e, hc⟩ := hl p'
      cases r' <;> simp [VName.chars, e] at h <;> (try (rw [← h.1] at hc; simp at hc))
    | tmp n' => simp [VName.chars] at h; rw [digits_inj h]
    | acc => simp [VName.chars] at h
    | out => simp [VName.chars] at h
    | arg f i => cases f <;> simp [VName.chars] at h
  | acc =>
    cases w with
    | splitO v => cases hw
    | splitI v => cases hw
    | loop r' p' =>
      obtain ⟨c, l, e, hc⟩ := hl p'
      cases r' <;> simp [VName.chars, e] at h <;> (try (rw [← h.1] at hc; simp at hc))
    | acc => rfl
    | tmp n' => simp [VName.chars] at h
    | out => simp [VName.chars] at h
    | arg f i => cases f <;> simp [VName.chars] at h
  | out =>
    cases w with
    | splitO v => cases hw
    | splitI v => cases hw
    | loop r' p' =>
      obtain ⟨c, l, e, hc⟩ := hl p'
      cases r' <;> simp [VName.chars, e] at h <;> (try (rw [← h.1] at hc; simp at hc))
    | out => rfl
    | tmp n' => simp [VName.chars] at h
    | acc => simp [VName.chars] at h
    | arg f i => cases f <;> simp [VName.chars] at h
  | arg f i =>
    cases w with
    | splitO v => cases hw
    | splitI v => cases hw
    | loop r' p' =>
      obtain ⟨c, l, e, hc⟩ := hl p'
      cases f <;> cases r' <;> simp [VName.chars, e] at h <;> (try (rw [← h.1] at hc; simp at hc))
    | tmp n' => cases f <;> simp [VName.chars] at h
    | acc => cases f <;> simp [VName.chars] at h
    | out => cases f <;> simp [VName.chars] at h
    | arg f' i' => cases f <;> cases f' <;> simp [VName.chars] at h <;> rw [digits_inj h]

theorem chars_inj : ∀ {v w : VName}, v.chars = w.chars → v = w
  | .splitO v, .splitO w, h => by simp only [VName.chars, List.append_cancel_right_eq] at h; rw [chars_inj h]
  | .splitI v, .splitI w, h => by simp only [VName.chars, List.append_cancel_right_eq] at h; rw [chars_inj h]
  | .splitO v, .splitI w, h => by
    have := congrArg List.getLast? h
    simp [VName.chars] at this
  | .splitI v, .splitO w, h => by
    have := congrArg List.getLast? h
    simp [VName.chars] at this
  | .splitO v, .loop _ _, h => absurd (base_count (v := .loop _ _) rfl) (by rw [← h]; have := splitO_count v; omega)
  | .splitO v, .tmp _, h => absurd (base_count (v := .tmp _) rfl) (by rw [← h]; have := splitO_count v; omega)
  | .splitO v, .acc, h => absurd (base_count (v := .acc) rfl) (by rw [← h]; have := splitO_count v; omega)
  | .splitO v, .out, h => absurd (base_count (v := .out) rfl) (by rw [← h]; have := splitO_count v; omega)
  | .splitO v, .arg _ _, h => absurd (base_count (v := .arg _ _) rfl) (by rw [← h]; have := splitO_count v; omega)
  | .splitI v, .loop _ _, h => absurd (base_count (v := .loop _ _) rfl) (by rw [← h]; have := splitI_count v; omega)
  | .splitI v, .tmp _, h => absurd (base_count (v := .tmp _) rfl) (by rw [← h]; have := splitI_count v; omega)
  | .splitI v, .acc, h => absurd (base_count (v := .acc) rfl) (by rw [← h]; have := splitI_count v; omega)
  | .splitI v, .out, h => absurd (base_count (v := .out) rfl) (by rw [← h]; have := splitI_count v; omega)
  | .splitI v, .arg _ _, h => absurd (base_count (v := .arg _ _) rfl) (by rw [← h]; have := splitI_count v; omega)
  | .loop _ _, .splitO v, h => absurd (base_count (v := .loop _ _) rfl) (by rw [h]; have := splitO_count v; omega)
  | .tmp _, .splitO v, h => absurd (base_count (v := .tmp _) rfl) (by rw [h]; have := splitO_count v; omega)
  | .acc, .splitO v, h => absurd (base_count (v := .acc) rfl) (by rw [h]; have := splitO_count v; omega)
  | .out, .splitO v, h => absurd (base_count (v := .out) rfl) (by rw [h]; have := splitO_count v; omega)
  | .arg _ _, .splitO v, h => absurd (base_count (v := .arg _ _) rfl) (by rw [h]; have := splitO_count v; omega)
  | .loop _ _, .splitI v, h => absurd (base_count (v := .loop _ _) rfl) (by rw [h]; have := splitI_count v; omega)
  | .tmp _, .splitI v, h => absurd (base_count (v := .tmp _) rfl) (by rw [h]; have := splitI_count v; omega)
  | .acc, .splitI v, h => absurd (base_count (v := .acc) rfl) (by rw [h]; have := splitI_count v; omega)
  | .out, .splitI v, h => absurd (base_count (v := .out) rfl) (by rw [h]; have := splitI_count v; omega)
  | .arg _ _, .splitI v, h => absurd (base_count (v := .arg _ _) rfl) (by rw [h]; have := splitI_count v; omega)
  | .loop _ _, .loop _ _, h | .loop _ _, .tmp _, h | .loop _ _, .acc, h | .loop _ _, .out, h | .loop _ _, .arg _ _, h => base_inj rfl rfl h
  | .tmp _, .loop _ _, h | .tmp _, .tmp _, h | .tmp _, .acc, h | .tmp _, .out, h | .tmp _, .arg _ _, h => base_inj rfl rfl h
  | .acc, .loop _ _, h | .acc, .tmp _, h | .acc, .acc, h | .acc, .out, h | .acc, .arg _ _, h => base_inj rfl rfl h
  | .out, .loop _ _, h | .out, .tmp _, h | .out, .acc, h | .out, .out, h | .out, .arg _ _, h => base_inj rfl rfl h
  | .arg _ _, .loop _ _, h | .arg _ _, .tmp _, h | .arg _ _, .acc, h | .arg _ _, .out, h | .arg _ _, .arg _ _, h => base_inj rfl rfl h

theorem render_inj {v w : VName} (h : v.render = w.render) : v = w := chars_inj (by simpa [VName.render] using congrArg String.toList h)

end Whale
