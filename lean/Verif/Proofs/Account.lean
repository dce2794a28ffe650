import Verif.Proofs.Materialize
/-
Kernel cache accounting: what any successful sequence of kernel runs does to the cache, the hit counts and the history.
-/
namespace Whale
open Mat
variable {V : Type}

/-- The part of the world a kernel invocation does not touch, and the launch counter. -/
structure Frame (w w' : World V) (n : Nat) : Prop where
  g : w'.g = w.g
  cache : w'.cache = w.cache
  hits : w'.hits = w.hits
  hist : w'.hist = w.hist
  tick : w'.tick = w.tick + n
  epoch : w'.epoch = w.epoch

theorem Frame.refl (w : World V) : Frame w w 0 := ⟨rfl, rfl, rfl, rfl, rfl, rfl⟩
theorem Frame.trans {w w' w'' : World V} {n m : Nat} (h : Frame w w' n) (k : Frame w' w'' m) : Frame w w'' (n + m) :=
  ⟨k.g.trans h.g, k.cache.trans h.cache, k.hits.trans h.hits, k.hist.trans h.hist, by rw [k.tick, h.tick]; omega, k.epoch.trans h.epoch⟩

theorem Frame.trans0 {w w' w'' : World V} {m : Nat} (h : Frame w w' 0) (k : Frame w' w'' m) : Frame w w'' m := by
  have := h.trans k; rwa [Nat.zero_add] at this

theorem fillCpu_frame (A : Scalar V) (w : World V) (i : Nat) : Frame w (fillCpu A w i) 0 := by
  unfold fillCpu; split <;> exact ⟨rfl, rfl, rfl, rfl, rfl, rfl⟩

theorem foldl_fillCpu_frame (A : Scalar V) (l : List Nat) (w : World V) : Frame w (l.foldl (fillCpu A) w) 0 := by
  induction l generalizing w with
  | nil => exact .refl w
  | cons i l ih => exact (fillCpu_frame A w i).trans (ih _)

theorem toDev_frame {b : Backend V} {w w' : World V} {p : Nat × Nat} (h : toDev b w p = .ok w') : Frame w w' 0 := by
  unfold toDev at h
  obtain ⟨w1, h1, h2⟩ := except_bind_ok h
  cases h2
  have : Frame w w1 0 := by
    unfold alloc at h1
    split at h1
    · cases h1; exact .refl w
    · split at h1
      · cases h1
      · cases h1; exact ⟨rfl, rfl, rfl, rfl, rfl, rfl⟩
  refine this.trans0 ?_
  unfold htod
  split
  · split
    · exact ⟨rfl, rfl, rfl, rfl, rfl, rfl⟩
    · exact .refl _
  · exact .refl _

theorem foldlM_toDev_frame {b : Backend V} {l : List (Nat × Nat)} {w w' : World V} (h : l.foldlM (toDev b) w = .ok w') : Frame w w' 0 := by
  induction l generalizing w with
  | nil => cases h; exact .refl _
  | cons p l ih =>
    rw [List.foldlM_cons] at h
    obtain ⟨w1, h1, h2⟩ := except_bind_ok h
    exact (toDev_frame h1).trans (ih h2)

theorem invoke_frame {b : Backend V} {w w' : World V} {sch : Schedule} {K : Kernel} {out : Nat} {ins : List Nat}
    (h : invoke b w sch K out ins = .ok w') : Frame w w' 1 := by
  unfold invoke at h
  simp only [bind, Except.bind] at h
  split at h
  · cases h
  · split at h
    · cases h
    · split at h
      · split at h
        · cases h
        · rename_i w1 h1
          have f1 := foldlM_toDev_frame h1
          split at h
          · split at h
            · cases h; exact f1.trans0 ⟨rfl, rfl, rfl, rfl, rfl, rfl⟩
            · cases h
          · cases h
      · have f1 := foldl_fillCpu_frame b.A (out :: ins) w
        split at h
        · split at h
          · cases h; exact f1.trans0 ⟨rfl, rfl, rfl, rfl, rfl, rfl⟩
          · cases h
        · cases h

/-- `L`: the cache keys of all launches so far, in order. -/
structure Acc (w : World V) (L : List Key) : Prop where
  nodup : (w.cache.map (·.1)).Nodup
  keys : ∀ k, k ∈ w.cache.map (·.1) ↔ k ∈ L
  hist : w.hist = w.cache.map (·.2)
  hits : ∀ k ∈ L, w.hits k + 1 = L.count k
  tick : w.tick = w.epoch + L.length

theorem lookup_none {α β : Type} [BEq α] [LawfulBEq α] {l : List (α × β)} {k : α} (h : l.lookup k = none) : k ∉ l.map (·.1) := by
  intro hk
  obtain ⟨p, hp, rfl⟩ := List.mem_map.1 hk
  have := List.lookup_eq_none_iff.1 h p hp
  simp at this

theorem runFunc_acc {b : Backend V} {t : Tbl} {fuel : Nat} {w w' : World V} {p : Nat × Schedule} (h : runFunc b t fuel w p = .ok w') {L : List Key} (ha : Acc w L) :
    ∃ q, plan1 w.g t fuel p = some q ∧ Acc w' (L ++ [q.1]) ∧ w'.g = w.g := by
  unfold runFunc at h
  cases hF : t p.1 with
  | none => simp only [hF] at h; cases h
  | some F =>
    simp only [hF] at h
    obtain ⟨outs, h1, h⟩ := except_bind_ok h
    obtain ⟨key, h2, h⟩ := except_bind_ok h
    refine ⟨_, by simp only [plan1, hF, h2]; rfl, ?_⟩
    simp only
    cases hc : w.cache.lookup key with
    | some K =>
      simp only [hc] at h
      have hf := invoke_frame h
      have hk : key ∈ L := (ha.keys key).1 (List.mem_map.2 ⟨_, mem_of_lookup hc, rfl⟩)
      refine ⟨⟨by rw [hf.cache]; exact ha.nodup, fun k => ?_, by rw [hf.hist, hf.cache]; exact ha.hist, fun k hk' => ?_, ?_⟩, hf.g⟩
      · rw [hf.cache]; simp only [List.mem_append, List.mem_singleton]
        rw [ha.keys]
        exact ⟨.inl, fun h => h.elim id fun e => e ▸ hk⟩
      · have hkL : k ∈ L := by
          rcases List.mem_append.1 hk' with h | h
          · exact h
          · rw [List.mem_singleton] at h; exact h ▸ hk
        rw [hf.hits, List.count_append]
        simp only [List.count_singleton]
        have := ha.hits k hkL
        by_cases e : k = key
        · subst e; simp; omega
        · have e' : ¬ key = k := fun h => e h.symm
          simp [e, e']; omega
      · rw [hf.tick, hf.epoch, List.length_append]; simp [ha.tick, Nat.add_assoc]
    | none =>
      simp only [hc] at h
      obtain ⟨⟨K, n⟩, h3, h⟩ := except_bind_ok h
      obtain ⟨w1, h4, h⟩ := except_bind_ok h
      cases h
      have hf := invoke_frame h4
      have hk : key ∉ L := fun hk => lookup_none hc ((ha.keys key).2 hk)
      have hc' : w1.cache = w.cache ++ [(key, K)] := hf.cache
      have hh' : w1.hist = w.hist := hf.hist
      have ht' : w1.hits = fun k => if k = key then 0 else w.hits k := hf.hits
      refine ⟨⟨?_, fun k => ?_, ?_, fun k hk' => ?_, ?_⟩, hf.g⟩
      · simp only [hc', List.map_append, List.map_cons, List.map_nil]
        rw [List.nodup_append]
        refine ⟨ha.nodup, by simp, fun x hx y hy => ?_⟩
        simp only [List.mem_singleton] at hy
        subst hy
        rintro rfl
        exact hk ((ha.keys _).1 hx)
      · simp only [hc', List.map_append, List.map_cons, List.map_nil, List.mem_append, List.mem_singleton]
        rw [ha.keys]
      · simp only [hc', hh', ha.hist, List.map_append, List.map_cons, List.map_nil]
      · simp only [ht']
        rw [List.count_append]
        simp only [List.count_singleton]
        by_cases e : k = key
        · subst e; simp [List.count_eq_zero.2 hk]
        · have hkL : k ∈ L := by
            rcases List.mem_append.1 hk' with h | h
            · exact h
            · rw [List.mem_singleton] at h; exact absurd h e
          have e' : ¬ key = k := fun h => e h.symm
          have := ha.hits k hkL
          simp [e, e']; omega
      · have := hf.tick
        simp only at this
        have he : w1.epoch = w.epoch := hf.epoch
        rw [List.length_append]; simp [this, he, ha.tick, Nat.add_assoc]

theorem runFuncs_acc {b : Backend V} {t : Tbl} {fuel : Nat} {ps : List (Nat × Schedule)} {w w' : World V} (h : ps.foldlM (runFunc b t fuel) w = .ok w') {L : List Key}
    (ha : Acc w L) : Acc w' (L ++ (ps.filterMap (plan1 w.g t fuel)).map (·.1)) := by
  induction ps generalizing w L with
  | nil => cases h; simpa using ha
  | cons p ps ih =>
    rw [List.foldlM_cons] at h
    obtain ⟨w1, h1, h2⟩ := except_bind_ok h
    obtain ⟨q, e, a1, g1⟩ := runFunc_acc h1 ha
    have := ih h2 a1
    rw [g1] at this
    rw [List.filterMap_cons, e]
    simpa using this

theorem materializeF_acc {b : Backend V} {fuel : Nat} {w w' : World V} {a : Nat} (h : materializeF b fuel w a = .ok w') (ha : Acc w (w.log.map (·.1)))
    (hl : w'.log = w.log ++ launchLogF b.isGpu w.g fuel a) : Acc w' (w'.log.map (·.1)) := by
  induction fuel generalizing a with
  | zero => cases h
  | succ fuel ih =>
    unfold materializeF at h
    unfold launchLogF at hl
    split at h
    · rename_i hc
      simp only [hc, if_true, List.append_nil] at hl
      cases h; exact ha
    · rename_i hc
      rw [if_neg hc] at hl
      split at h
      · rename_i hv
        rw [if_pos hv] at hl
        split at h
        · rename_i x r hx
          rw [hx] at hl
          exact ih h hl
        · cases h
      · rename_i hv
        rw [if_neg hv] at hl
        obtain ⟨⟨funcs, t⟩, h1, h⟩ := except_bind_ok h
        obtain ⟨scheds, h2, h⟩ := except_bind_ok h
        simp only [h1, h2] at hl
        rw [hl, List.map_append]
        have ha' : Acc ({ w with log := w.log ++ (funcs.zip scheds).filterMap (plan1 w.g t (a + 2)) } : World V) (w.log.map (·.1)) :=
          ⟨ha.nodup, ha.keys, ha.hist, ha.hits, ha.tick⟩
        exact runFuncs_acc h ha'

end Whale
