import Verif.Proofs.Graph
import Verif.Model.Backward
import Verif.Spec.Reach
/-
The traversal of `backward` lists every computed array below the root once, inputs before consumers.
-/
namespace Whale
open Bwd
variable {V : Type}

/-- Every computed input of a listed array is listed before it. -/
def InputsFirst (g : Graph V) (l : List Nat) : Prop :=
  ∀ l1 f l2, l = l1 ++ f :: l2 → ∀ x ∈ (g.ctx f).inputs, (g.ctx x).inputs ≠ [] → x ∈ l1

theorem InputsFirst.nil (g : Graph V) : InputsFirst g [] := by intro l1 f l2 h; simp at h

theorem InputsFirst.snoc {g : Graph V} {l : List Nat} {t : Nat} (h : InputsFirst g l)
    (ht : ∀ x ∈ (g.ctx t).inputs, (g.ctx x).inputs ≠ [] → x ∈ l) : InputsFirst g (l ++ [t]) := by
  intro l1 f l2 e x hx hn
  rcases List.append_eq_append_iff.1 e with ⟨a, e1, e2⟩ | ⟨a, e1, e2⟩
  · cases a with
    | nil => simp at e1 e2; obtain ⟨rfl, _⟩ := e2; rw [e1]; exact ht x hx hn
    | cons b a => simp at e2
  · cases a with
    | nil => simp at e1 e2; obtain ⟨rfl, _⟩ := e2; rw [← e1]; exact ht x hx hn
    | cons b a =>
      simp only [List.cons_append, List.cons.injEq] at e2
      obtain ⟨rfl, e2⟩ := e2
      exact h l1 f a e1 x hx hn

structure DfsInv (g : Graph V) (seen funcs : List Nat) : Prop where
  sub : ∀ z ∈ funcs, z ∈ seen
  nodup : funcs.Nodup
  ord : InputsFirst g funcs

structure DfsRes (g : Graph V) (roots seen funcs seen' new : List Nat) : Prop where
  inv : DfsInv g seen' (funcs ++ new)
  seen : ∀ z, z ∈ seen' ↔ z ∈ seen ∨ z ∈ new
  root : ∀ t ∈ roots, (g.ctx t).inputs ≠ [] → t ∈ funcs ++ new
  below : ∀ z ∈ new, (g.ctx z).inputs ≠ [] ∧ (∃ t ∈ roots, Reach g t z) ∧ (z ∈ roots ∨ ∃ c ∈ new, z ∈ (g.ctx c).inputs)

theorem Reach.le {g : Graph V} (h : WF g) {t z : Nat} (ht : t < g.length) (r : Reach g t z) : z ≤ t := by
  induction r with
  | refl => exact Nat.le_refl _
  | step _ hx ih => have := h.inputs_lt (Nat.lt_of_le_of_lt ih ht) _ hx; omega

theorem Reach.head {g : Graph V} {t x z : Nat} (hx : x ∈ (g.ctx t).inputs) (r : Reach g x z) : Reach g t z := by
  induction r with
  | refl => exact .step .refl hx
  | step _ h ih => exact .step ih h

theorem dfs_fold {g : Graph V} {fuel : Nat} (hrec : ∀ x seen funcs, x < fuel → x < g.length → DfsInv g seen funcs →
      (∀ z ∈ seen, z ∉ funcs → x < z) → ∃ seen' new, dfs g fuel x (seen, funcs) = .ok (seen', funcs ++ new) ∧ DfsRes g [x] seen funcs seen' new)
    (xs : List Nat) : ∀ seen funcs, (∀ x ∈ xs, x < fuel ∧ x < g.length) → DfsInv g seen funcs → (∀ x ∈ xs, ∀ z ∈ seen, z ∉ funcs → x < z) →
      ∃ seen' new, xs.foldlM (fun st i => dfs g fuel i st) (seen, funcs) = .ok (seen', funcs ++ new) ∧ DfsRes g xs seen funcs seen' new := by
  induction xs with
  | nil =>
    intro seen funcs _ hi _
    exact ⟨seen, [], by simp [pure, Except.pure], by simpa using hi, by simp, by simp, by simp⟩
  | cons x xs ih =>
    intro seen funcs hlt hi hp
    obtain ⟨s1, n1, e1, r1⟩ := hrec x seen funcs (hlt x (by simp)).1 (hlt x (by simp)).2 hi (hp x (by simp))
    obtain ⟨s2, n2, e2, r2⟩ := ih s1 (funcs ++ n1) (fun y hy => hlt y (List.mem_cons_of_mem _ hy)) r1.inv (by
      intro y hy z hz hzn
      rcases (r1.seen z).1 hz with hz | hz
      · exact hp y (List.mem_cons_of_mem _ hy) z hz (fun hh => hzn (List.mem_append_left _ hh))
      · exact absurd (List.mem_append_right _ hz) hzn)
    refine ⟨s2, n1 ++ n2, ?_, ?_⟩
    · simp only [List.foldlM_cons, e1, bind, Except.bind]
      rw [e2]; simp
    · refine ⟨by simpa using r2.inv, fun z => ?_, fun t ht hn => ?_, fun z hz => ?_⟩
      · rw [r2.seen, r1.seen, List.mem_append, or_assoc]
      · rw [← List.append_assoc]
        rcases List.mem_cons.1 ht with rfl | ht
        · exact List.mem_append_left _ (r1.root t (by simp) hn)
        · exact r2.root t ht hn
      · rcases List.mem_append.1 hz with hz | hz
        · obtain ⟨h1, ⟨t, ht, hr⟩, h3⟩ := r1.below z hz
          simp only [List.mem_singleton] at ht; subst ht
          refine ⟨h1, ⟨t, by simp, hr⟩, ?_⟩
          rcases h3 with h3 | ⟨c, hc, hz'⟩
          · exact .inl (by simp at h3; simp [h3])
          · exact .inr ⟨c, List.mem_append_left _ hc, hz'⟩
        · obtain ⟨h1, ⟨t, ht, hr⟩, h3⟩ := r2.below z hz
          refine ⟨h1, ⟨t, List.mem_cons_of_mem _ ht, hr⟩, ?_⟩
          rcases h3 with h3 | ⟨c, hc, hz'⟩
          · exact .inl (List.mem_cons_of_mem _ h3)
          · exact .inr ⟨c, List.mem_append_right _ hc, hz'⟩

theorem dfs_ok {g : Graph V} (h : WF g) : ∀ fuel t seen funcs, t < fuel → t < g.length → DfsInv g seen funcs → (∀ z ∈ seen, z ∉ funcs → t < z) →
    ∃ seen' new, dfs g fuel t (seen, funcs) = .ok (seen', funcs ++ new) ∧ DfsRes g [t] seen funcs seen' new := by
  intro fuel
  induction fuel with
  | zero => intro t _ _ h; omega
  | succ fuel ih =>
    intro t seen funcs hf ht hi hp
    unfold dfs
    by_cases hc : (g.ctx t).inputs.isEmpty ∨ t ∈ seen
    · rw [if_pos hc]
      refine ⟨seen, [], by simp [pure, Except.pure], by simpa using hi, by simp, ?_, by simp⟩
      intro t' ht' hn
      simp only [List.mem_singleton] at ht'; subst ht'
      rcases hc with hc | hc
      · exact absurd (by simpa using hc) hn
      · simp only [List.append_nil]
        apply Decidable.byContradiction
        intro hnf
        have := hp t' hc hnf; omega
    · rw [if_neg hc]
      have hc1 : (g.ctx t).inputs ≠ [] := fun e => hc (.inl (by simp [e]))
      have hc2 : t ∉ seen := fun e => hc (.inr e)
      have hlt := h.inputs_lt ht
      obtain ⟨s1, n1, e1, r1⟩ := dfs_fold ih (g.ctx t).inputs (t :: seen) funcs
        (fun x hx => ⟨by have := hlt x hx; omega, by have := hlt x hx; omega⟩)
        ⟨fun z hz => List.mem_cons_of_mem _ (hi.sub z hz), hi.nodup, hi.ord⟩
        (by
          intro x hx z hz hzn
          have := hlt x hx
          rcases List.mem_cons.1 hz with rfl | hz
          · exact this
          · have := hp z hz hzn; omega)
      have hnew : t ∉ funcs ++ n1 := by
        intro hm
        rcases List.mem_append.1 hm with hm | hm
        · exact hc2 (hi.sub t hm)
        · obtain ⟨_, ⟨x, hx, hr⟩, _⟩ := r1.below t hm
          have h1 := hlt x hx
          have := hr.le h (by omega); omega
      refine ⟨s1, n1 ++ [t], ?_, ?_⟩
      · simp only [e1, bind, Except.bind, pure, Except.pure, List.append_assoc]
      · refine ⟨⟨?_, ?_, ?_⟩, fun z => ?_, fun t' ht' _ => ?_, fun z hz => ?_⟩
        · intro z hz
          rw [← List.append_assoc] at hz
          rcases List.mem_append.1 hz with hz | hz
          · exact r1.inv.sub z hz
          · simp only [List.mem_singleton] at hz; subst hz; exact (r1.seen z).2 (.inl (by simp))
        · rw [← List.append_assoc, List.nodup_append]
          exact ⟨r1.inv.nodup, by simp, by intro a ha b hb; simp only [List.mem_singleton] at hb; subst hb; intro e; subst e; exact hnew ha⟩
        · rw [← List.append_assoc]
          exact r1.inv.ord.snoc (fun x hx hn => r1.root x hx hn)
        · rw [r1.seen]; simp only [List.mem_cons, List.mem_append, List.not_mem_nil, or_false]
          constructor
          · rintro ((h | h) | h)
            · exact .inr (.inr h)
            · exact .inl h
            · exact .inr (.inl h)
          · rintro (h | h | h)
            · exact .inl (.inr h)
            · exact .inr h
            · exact .inl (.inl h)
        · simp only [List.mem_singleton] at ht'; subst ht'; simp
        · rcases List.mem_append.1 hz with hz | hz
          · obtain ⟨h1, ⟨x, hx, hr⟩, h3⟩ := r1.below z hz
            refine ⟨h1, ⟨t, by simp, hr.head hx⟩, .inr ?_⟩
            rcases h3 with h3 | ⟨c, hc, hz'⟩
            · exact ⟨t, by simp, h3⟩
            · exact ⟨c, List.mem_append_left _ hc, hz'⟩
          · simp only [List.mem_singleton] at hz; subst hz
            exact ⟨hc1, ⟨z, by simp, .refl⟩, .inl (by simp)⟩

/-- The order in which `backward` lists the computed arrays below `y`. -/
theorem dfs_root {g : Graph V} (h : WF g) {y : Nat} (hy : y < g.length) :
    ∃ seen order, dfs g (y + 1) y ([], []) = .ok (seen, order) ∧ order.Nodup ∧ InputsFirst g order ∧
      (∀ z, z ∈ order ↔ Reach g y z ∧ (g.ctx z).inputs ≠ []) ∧ (∀ z ∈ order, z = y ∨ ∃ c ∈ order, z ∈ (g.ctx c).inputs) := by
  obtain ⟨seen', new, e, r⟩ := dfs_ok h (y + 1) y [] [] (by omega) hy ⟨by simp, by simp, .nil g⟩ (by simp)
  have hr := r.inv
  simp only [List.nil_append] at e hr
  refine ⟨seen', new, e, hr.nodup, hr.ord, fun z => ⟨fun hz => ?_, fun hz => ?_⟩, fun z hz => ?_⟩
  · obtain ⟨h1, ⟨t, ht, h2⟩, _⟩ := r.below z hz
    simp only [List.mem_singleton] at ht; subst ht; exact ⟨h2, h1⟩
  · obtain ⟨h1, h2⟩ := hz
    induction h1 with
    | refl => simpa using r.root y (by simp) h2
    | @step i x hi hx ih =>
      have hi' := ih (by intro e; rw [e] at hx; simp at hx)
      obtain ⟨l1, l2, e⟩ := List.append_of_mem hi'
      rw [e]
      exact List.mem_append_left _ (hr.ord l1 i l2 e x hx h2)
  · obtain ⟨_, _, h3⟩ := r.below z hz
    simpa using h3

end Whale
