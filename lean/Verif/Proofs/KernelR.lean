import Verif.Proofs.KernelD
/-
Executing reductions and whole kernel bodies.
-/
namespace Whale
open Algo Codegen Kern
variable {V : Type} [Lim]

theorem foldlM_flatMap' {α β : Type} {W : Type} (l : List α) (f : α → List β) (g : W → β → Option W) (a : W) :
    (l.flatMap f).foldlM g a = l.foldlM (fun a i => (f i).foldlM g a) a := by
  induction l generalizing a with
  | nil => rfl
  | cons x l ih =>
    rw [List.flatMap_cons, List.foldlM_append, List.foldlM_cons]
    congr 1
    funext b
    exact ih b

theorem leave_gen {a b c : KEnv V} (h1 : ∀ y, (a y).isSome = true → b y = c y) (h2 : ∀ y, a y = none → c y = none) : KEnv.leave a b = c := by
  funext y
  unfold KEnv.leave
  split
  · rename_i h; exact h1 y h
  · rename_i h; exact (h2 y (by simpa using h)).symm

theorem bind_nil (ρ : LEnv) (j : List Int) : ρ.bind [] j = ρ := by funext l; rfl

theorem bind_cons {ρ : LEnv} {l : LoopIndex} {ls : List LoopIndex} (hn : l ∉ ls) (i : Int) (j : List Int) :
    ρ.bind (l :: ls) (i :: j) = (ρ.bind [l] [i]).bind ls j := by
  funext x
  unfold LEnv.bind
  simp only [List.zip_cons_cons, List.lookup]
  by_cases hx : x = l
  · subst hx
    have h1 : (x == x) = true := by simp
    rw [h1, lookup_zip_none hn]
  · have h1 : (x == l) = false := by simpa using hx
    rw [h1]
    cases (ls.zip j).lookup x <;> simp

theorem bind_one_same (ρ : LEnv) (l : LoopIndex) (i : Int) : ρ.bind [l] [i] l = some i := by
  simp [LEnv.bind, List.lookup]

theorem bind_one_ne (ρ : LEnv) {l x : LoopIndex} (i : Int) (h : x ≠ l) : ρ.bind [l] [i] x = ρ x := by
  have h1 : (x == l) = false := by simpa using h
  simp [LEnv.bind, List.lookup, h1]

theorem Bound.bind_one {S : List LoopIndex} {ρ : LEnv} {σ : KEnv V} {l : LoopIndex} {i : Int} (hb : Bound S ρ σ)
    (hinj : ∀ l ∈ S, ∀ l' ∈ S, l.name = l'.name → l = l') (hl : l ∈ S) : Bound S (ρ.bind [l] [i]) (σ.set l.name (.I i)) := by
  intro l' hl' v hv
  by_cases he : l' = l
  · subst he
    rw [bind_one_same, Option.some.injEq] at hv; subst hv
    exact set_same _ _ _
  · rw [bind_one_ne _ _ he] at hv
    rw [set_ne _ _ (fun e => he (hinj _ hl' _ hl e))]
    exact hb l' hl' v hv

theorem Bound.set_other {S : List LoopIndex} {ρ : LEnv} {σ : KEnv V} {x : VName} {w : Val V} (hb : Bound S ρ σ) (hx : ∀ l ∈ S, l.name ≠ x) :
    Bound S ρ (σ.set x w) := by
  intro l hl v hv
  rw [set_ne _ _ (hx l hl)]; exact hb l hl v hv

theorem FreshFrom.set {n : Nat} {σ : KEnv V} {x : VName} {w : Val V} (h : FreshFrom n σ) (hx : ∀ k, x ≠ .tmp k) : FreshFrom n (σ.set x w) := by
  intro k hk
  rw [set_ne _ _ (fun e => hx k e.symm)]; exact h k hk

theorem set_self {σ : KEnv V} {x : VName} {w : Val V} (h : σ x = some w) : σ.set x w = σ := by
  funext y
  unfold KEnv.set
  split
  · rename_i e; rw [e, h]
  · rfl

theorem redLoops_exec {m : Machine V} {body : Stmt} {n n' : Nat} {S : List LoopIndex} (step : LEnv → V → Option V)
    (hbody : ∀ ρ σ a a', Bound S ρ σ → FreshFrom n σ → σ .acc = some (.D a) → step ρ a = some a' →
      ∃ σ', exec m body σ = some ⟨σ', [], false⟩ ∧ Off n n' (σ.set .acc (.D a')) σ')
    (hinj : ∀ l ∈ S, ∀ l' ∈ S, l.name = l'.name → l = l') :
    ∀ (rs : List LoopIndex), (∀ l ∈ rs, l ∈ S) → rs.Nodup → ∀ (ρ : LEnv) (σ : KEnv V) (a af : V), Bound S ρ σ → FreshFrom n σ →
      σ .acc = some (.D a) → (∀ l ∈ rs, σ l.name = none) →
      (indices (rs.map (·.extent))).foldlM (fun a j => step (ρ.bind rs j) a) a = some af →
      ∃ σ', exec m (redLoops rs body) σ = some ⟨σ', [], false⟩ ∧ Off n n' (σ.set .acc (.D af)) σ' := by
  intro rs
  induction rs with
  | nil =>
    intro _ _ ρ σ a af hb hf hacc _ hst
    simp only [List.map_nil, indices, List.foldlM_cons, List.foldlM_nil, bind_nil] at hst
    have : step ρ a = some af := by
      cases h : step ρ a with
      | none => rw [h] at hst; cases hst
      | some w => rw [h] at hst; exact hst
    exact hbody ρ σ a af hb hf hacc this
  | cons l ls ih =>
    intro hS hnd ρ σ a af hb hf hacc hnone hst
    rw [List.nodup_cons] at hnd
    have hlS := hS l (by simp)
    simp only [List.map_cons, indices] at hst
    rw [foldlM_flatMap'] at hst
    have hxacc : ∀ y, y = VName.acc → y ≠ l.name := by rintro y rfl h; simp [LoopIndex.name] at h
    have hcore : ∀ (is : List Int) (a af : V),
        is.foldlM (fun a i => ((indices (ls.map (·.extent))).map (i :: ·)).foldlM (fun a j => step (ρ.bind (l :: ls) j) a) a) a = some af →
        is.foldlM (fun (st : St V) i => if st.ret then pure st else do
          let r ← exec m (redLoops ls body) (st.env.set l.name (.I i))
          pure ⟨KEnv.leave st.env r.env, st.writes ++ r.writes, r.ret⟩) ⟨σ.set .acc (.D a), [], false⟩ = some ⟨σ.set .acc (.D af), [], false⟩ := by
      intro is
      induction is with
      | nil => intro a af h; simp only [List.foldlM_nil, pure, Option.some.injEq] at h; subst h; rfl
      | cons i is ihi =>
        intro a af h
        rw [List.foldlM_cons] at h
        simp only [Option.bind_eq_bind, Option.bind_eq_some_iff] at h
        obtain ⟨a1, h1, h2⟩ := h
        rw [List.foldlM_map] at h1
        have h1' : (indices (ls.map (·.extent))).foldlM (fun a j => step ((ρ.bind [l] [i]).bind ls j) a) a = some a1 := by
          rw [← h1]
          congr 1
          funext a j
          rw [bind_cons hnd.1]
        have hb0 : Bound S ρ (σ.set .acc (.D a)) := hb.set_other (fun l _ e => by simp [LoopIndex.name] at e)
        have hf0 : FreshFrom n (σ.set .acc (.D a)) := hf.set (fun k e => by cases e)
        obtain ⟨σ', e', o'⟩ := ih (fun x hx => hS x (by simp [hx])) hnd.2 (ρ.bind [l] [i]) ((σ.set .acc (.D a)).set l.name (.I i)) a a1
          (hb0.bind_one hinj hlS) (hf0.set (fun k e => by simp [LoopIndex.name] at e))
          (by rw [set_ne _ _ (hxacc _ rfl), set_same])
          (fun l' hl' => by
            rw [set_ne _ _ (fun e => hnd.1 ((hinj _ (hS l' (by simp [hl'])) _ hlS e) ▸ hl')), set_ne _ _ (fun e => by simp [LoopIndex.name] at e)]
            exact hnone l' (by simp [hl'])) h1'
        have hleave : KEnv.leave (σ.set .acc (.D a)) σ' = σ.set .acc (.D a1) := by
          apply leave_gen
          · intro y hy
            have hyx : y ≠ l.name := by
              rintro rfl
              rw [set_ne _ _ (fun e => by simp [LoopIndex.name] at e), hnone l (by simp)] at hy; cases hy
            rw [o' y]
            · by_cases hya : y = .acc
              · subst hya; rw [set_same, set_same]
              · rw [set_ne _ _ hya, set_ne _ _ hyx, set_ne _ _ hya, set_ne _ _ hya]
            · rintro ⟨k, rfl, hk, _⟩
              rw [hf0 k hk] at hy; cases hy
          · intro y hy
            have hya : y ≠ .acc := by rintro rfl; rw [set_same] at hy; cases hy
            rw [set_ne _ _ hya] at hy ⊢; exact hy
        rw [List.foldlM_cons]
        simp only [Bool.false_eq_true, if_false, e', Option.bind_eq_bind, Option.bind_some, pure, hleave, List.append_nil]
        exact ihi a1 af h2
    refine ⟨σ.set .acc (.D af), ?_, Off.refl _ _ _⟩
    simp only [redLoops, exec]
    rw [hnone l (by simp)]
    have := hcore (irange l.extent) a af hst
    rw [set_self hacc] at this
    simpa using this

/-- Names of loop variables are injective on the loops of one function. -/
theorem name_inj {g : Graph V} {a : Nat} {rs : List LoopIndex} (hr : RedOK a rs) :
    ∀ l ∈ outLoops g a ++ rs, ∀ l' ∈ outLoops g a ++ rs, l.name = l'.name → l = l' := by
  intro l hl l' hl' he
  simp only [LoopIndex.name, VName.loop.injEq] at he
  rcases List.mem_append.1 hl with h | h <;> rcases List.mem_append.1 hl' with h' | h'
  · obtain ⟨i, hi, rfl⟩ := List.mem_iff_getElem.1 h
    obtain ⟨j, hj, rfl⟩ := List.mem_iff_getElem.1 h'
    rw [outLoops_getElem, outLoops_getElem] at he ⊢
    simp only at he
    simp [he.2]
  · have h1 := (mem_outLoops h).2
    have h2 := (hr.2 _ h').2
    rw [he.1, h2] at h1; cases h1
  · have h1 := (mem_outLoops h').2
    have h2 := (hr.2 _ h).2
    rw [← he.1, h2] at h1; cases h1
  · have hp := hr.1
    obtain ⟨i, hi, rfl⟩ := List.mem_iff_getElem.1 h
    obtain ⟨j, hj, rfl⟩ := List.mem_iff_getElem.1 h'
    have : i = j := by
      unfold List.Nodup at hp
      rw [List.pairwise_iff_getElem] at hp
      simp only [List.length_map, List.getElem_map] at hp
      rcases Nat.lt_trichotomy i j with h | h | h
      · exact absurd he.2 (hp i j hi hj h)
      · exact h
      · exact absurd he.2.symm (hp j i hj hi h)
    subst this; rfl

theorem RedOK.nodup {a : Nat} {rs : List LoopIndex} (h : RedOK a rs) : rs.Nodup := by
  have := h.1
  unfold List.Nodup at this ⊢
  rw [List.pairwise_map] at this
  exact this.imp (fun h e => h (by rw [e]))

theorem genRoot_gen {g : Graph V} {tbl : Tbl} {args : Args} {dt : DType} {a : Nat} {e : DExpr}
    (hw : RootWF g a e) (ha : KArgsOK g tbl args e) (n : Nat) :
    ∃ s k n', genD g tbl args dt e n = .ok (s, k, n') ∧ n ≤ n' := by
  cases e with
  | red op e rs =>
    obtain ⟨s1, k1, n1, e1, h1⟩ := genD_gen (dt := dt) hw.2.2 ⟨ha.fnc, ha.buf⟩ n
    refine ⟨.seq (.initD dt .acc (.zero true)) (redLoops rs (.seq s1 (.set .acc (.bin .Add (.var .acc) k1)))), .var .acc, n1, ?_, h1⟩
    simp only [genD, e1, hw.1, bind, Except.bind, pure, Except.pure, ne_eq, not_true, if_false]
  | _ => exact genD_gen hw ha n

/-- Execution of the value computation of a kernel. -/
theorem genRoot_exec {g : Graph V} {tbl : Tbl} {args : Args} {dt : DType} {m : Machine V} {rd : Nat → List Int → Option V}
    {a : Nat} {ρ : LEnv} {e : DExpr} {n n' : Nat} {s : Stmt} {k : KD} {v : V} {σ : KEnv V}
    (hstr : ∀ b, g.ctx b = .const → b < g.length → (g.strides b).length = g.ndim b)
    (hw : RootWF g a e) (ha : KArgsOK g tbl args e) (hm : MemOK g args m rd)
    (hg : genD g tbl args dt e n = .ok (s, k, n')) (he : evalR m.A rd ρ e = some v) (hb : Bound (outLoops g a) ρ σ)
    (hρ : ∀ l, l.red = true → ρ l = none) (hf : FreshFrom n σ)
    (hacc : σ .acc = none) (hred : ∀ p, σ (.loop true p) = none) :
    ∃ σ', exec m s σ = some ⟨σ', [], false⟩ ∧ Le σ σ' ∧ evalKD m σ' k = some v := by
  cases e with
  | red op e rs =>
    obtain ⟨hop, hr, hd⟩ := hw
    obtain ⟨s1, k1, n1, e1, h1⟩ := genD_gen (tbl := tbl) (args := args) (dt := dt) hd ⟨ha.fnc, ha.buf⟩ n
    simp only [genD, e1, hop, bind, Except.bind, pure, Except.pure, ne_eq, not_true, if_false, Except.ok.injEq, Prod.mk.injEq] at hg
    obtain ⟨rfl, rfl, rfl⟩ := hg
    have hlacc : ∀ l ∈ outLoops g a ++ rs, l.name ≠ VName.acc := fun l _ e => by simp [LoopIndex.name] at e
    have hbody : ∀ ρ' (σ' : KEnv V) w w', Bound (outLoops g a ++ rs) ρ' σ' → FreshFrom n σ' → σ' .acc = some (.D w) →
        (do let v ← evalD m.A rd ρ' e; pure (m.A.bin .Add w v)) = some w' →
        ∃ σ'', exec m (.seq s1 (.set .acc (.bin .Add (.var .acc) k1))) σ' = some ⟨σ'', [], false⟩ ∧ Off n n1 (σ'.set .acc (.D w')) σ'' := by
      intro ρ' σ' w w' hb' hf' hacc' hst
      simp only [Option.bind_eq_bind, Option.bind_eq_some_iff, pure, Option.some.injEq] at hst
      obtain ⟨u, hu, rfl⟩ := hst
      obtain ⟨_, σ1, r1, v1⟩ := genD_exec hstr hd (ha := ⟨ha.fnc, ha.buf⟩) hm e1 hu hb' hf'
      have ha1 : σ1 .acc = some (.D w) := r1.2.le hf' _ _ hacc'
      refine ⟨σ1.set .acc (.D (m.A.bin .Add w u)), ?_, r1.2.set _ _⟩
      simp only [exec, r1.1, ha1, evalKD, v1, Option.bind_eq_bind, Option.bind_some, pure]
      rfl
    have hbσ : Bound (outLoops g a ++ rs) ρ (σ.set .acc (.D (m.A.ofInt 0))) := by
      intro l hl w hw'
      rw [set_ne _ _ (hlacc l hl)]
      rcases List.mem_append.1 hl with h | h
      · exact hb l h w hw'
      · rw [hρ l (hr.2 l h).2] at hw'; cases hw'
    have hfold : (indices (rs.map (·.extent))).foldlM (fun acc j => (do let v ← evalD m.A rd (ρ.bind rs j) e; pure (m.A.bin .Add acc v))) (m.A.ofInt 0) = some v := he
    obtain ⟨σ', e', o'⟩ := redLoops_exec (m := m) (n' := n1) (S := outLoops g a ++ rs) (fun ρ w => (do let v ← evalD m.A rd ρ e; pure (m.A.bin .Add w v)))
      hbody (name_inj hr) rs (fun l hl => List.mem_append_right _ hl) hr.nodup ρ (σ.set .acc (.D (m.A.ofInt 0))) (m.A.ofInt 0) v hbσ
      (hf.set (fun k e => by cases e)) (set_same _ _ _)
      (fun l hl => by rw [set_ne _ _ (hlacc l (List.mem_append_right _ hl))]; simp only [LoopIndex.name, (hr.2 l hl).2]; exact hred _) hfold
    refine ⟨σ', ?_, ?_, ?_⟩
    · simp only [exec, hacc, evalKD, Option.bind_eq_bind, Option.bind_some, pure, Option.isSome_none, Bool.false_eq_true, if_false, if_true]
      rw [e']; rfl
    · intro y w hy
      have hya : y ≠ .acc := by rintro rfl; rw [hacc] at hy; cases hy
      rw [o' y (by rintro ⟨k, rfl, hk, _⟩; rw [hf k hk] at hy; cases hy), set_ne _ _ hya, set_ne _ _ hya]
      exact hy
    · have : σ' .acc = some (.D v) := by
        rw [o' .acc (by rintro ⟨k, h, _⟩; cases h), set_same]
      simp [evalKD, this]
  | _ =>
    obtain ⟨_, σ', r, hv⟩ := genD_exec hstr hw ha hm hg he hb hf
    exact ⟨σ', r.1, r.2.le hf, hv⟩

end Whale
