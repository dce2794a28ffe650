import Verif.Proofs.SemGen
/-
C48: calling the function of a generated text.
-/
namespace Whale.Sem
open Whale Syntax Kern
variable {V : Type}

theorem start_none : ∀ {ps : List (Option Str × Str)} {ls : List (List V)} {y : Str}, y ∉ ps.map (·.2) → start ps ls y = none
  | [], _, _, _ => rfl
  | _ :: _, [], _, _ => rfl
  | p :: ps, l :: ls, y, h => by
    simp only [List.map_cons, List.mem_cons, not_or] at h
    rw [start, Env.set_ne _ _ h.1]
    exact start_none h.2

theorem start_names : ∀ {ps : List (VName × DType)} {ty : DType → Option Str} {ls : List (List V)} {y : Str},
    (start (ps.map fun p => (ty p.2, p.1.chars)) ls y).isSome → ∃ x : VName, y = x.chars := by
  intro ps ty ls y h
  by_cases hy : y ∈ (ps.map fun p => (ty p.2, p.1.chars)).map (·.2)
  · obtain ⟨_, hq, rfl⟩ := List.mem_map.1 hy
    obtain ⟨p, _, rfl⟩ := List.mem_map.1 hq
    exact ⟨p.1, rfl⟩
  · rw [start_none hy] at h; cases h

/-- Every parameter is bound to its array. -/
theorem start_arr : ∀ {ps : List (VName × DType)} {ty : DType → Option Str} {ls : List (List V)} {x : VName}, ps.length = ls.length → (ps.map (·.1)).Nodup → x ∈ ps.map (·.1) →
    ∃ t l, start (ps.map fun p => (ty p.2, p.1.chars)) ls x.chars = some (.arr t l) ∧ ((ps.map (·.1)).zip ls).lookup x = some l ∧ l ∈ ls
  | [], _, _, _, _, _, hx => by cases hx
  | p :: ps, _, [], _, hl, _, _ => by cases hl
  | p :: ps, ty, l :: ls, x, hl, hn, hx => by
    simp only [List.map_cons, List.nodup_cons] at hn
    by_cases he : x = p.1
    · subst he
      exact ⟨_, l, Env.set_same .., by simp, List.mem_cons_self⟩
    · have hx' : x ∈ ps.map (·.1) := by
        rcases List.mem_cons.1 hx with h | h
        · exact absurd h he
        · exact h
      obtain ⟨t, l', h1, h2, h3⟩ := start_arr (ty := ty) (ls := ls) (by simpa using hl) hn.2 hx'
      refine ⟨t, l', ?_, ?_, List.mem_cons_of_mem _ h3⟩
      · simp only [List.map_cons, start]
        rw [Env.set_ne _ _ (chars_ne he)]
        exact h1
      · simp only [List.map_cons, List.zip_cons_cons, List.lookup_cons]
        rw [show (x == p.1) = false by simpa using he]
        exact h2

theorem program_params (L : Lang) (name : Str) (K : Kernel) :
    (K.program L name).params = K.params.map fun p => (if L = .python then none else some (LangSpec.typename p.2), p.1.chars) := rfl

theorem program_body (L : Lang) (name : Str) (K : Kernel) : (K.program L name).body = K.body.sx L .done := rfl

theorem program_imports (L : Lang) (name : Str) (K : Kernel) :
    (K.program L name).imports = if L = .python then ["math".toList] else ["include <stdint.h>".toList, "include <math.h>".toList] := rfl

theorem call_out {S : Setup V} (h : S.Ok) {K : Kernel} {ps : List (VName × DType)} (hp : K.params = (.out, S.dt) :: ps) (hsc : K.WellScoped) (ht : Stmt.tidy S K.body)
    {out : List V} {ins : List (List V)} (hlen : ps.length = ins.length) (hmem : S.m.mem = fun x => ((ps.map (·.1)).zip ins).lookup x) (hel : ∀ l ∈ ins, ∀ v ∈ l, S.T v)
    (hout : out.length = S.m.outLen) {st : St V} (hex : exec S.m K.body (fun _ => none) = some st) (name : Str) :
    Out S.F (call S.c.L S.c.N S.c.gpu (K.program S.c.L name) (out :: ins)) fun l => l = applyWrites out st.writes := by
  obtain ⟨hnd, hb⟩ := hsc
  obtain ⟨Γ', hb⟩ := Option.isSome_iff_exists.1 hb
  have hty : (if S.c.L = .python then none else some (LangSpec.typename S.dt)) = S.ty := rfl
  have hnd' : ((K.program S.c.L name).params.map (·.2)).Nodup := by
    have : (K.program S.c.L name).params.map (·.2) = (K.params.map (·.1)).map VName.chars := by
      rw [program_params, List.map_map, List.map_map]; rfl
    rw [this]
    exact hnd.map fun _ _ he => chars_inj he
  have hctx : (⟨S.c.L, S.c.N, (K.program S.c.L name).imports, S.c.gpu⟩ : Ctx V) = S.c := by
    have : (K.program S.c.L name).imports = S.c.imports := by rw [program_imports, h.imports]
    rw [this]
  unfold call
  rw [if_pos ⟨by rw [program_params, hp]; simp [hlen], hnd'⟩, hctx]
  have hpar : (K.program S.c.L name).params = (S.ty, VName.out.chars) :: ps.map fun p => ((if S.c.L = .python then none else some (LangSpec.typename p.2)), p.1.chars) := by
    rw [program_params, hp, List.map_cons, hty]
  rw [hp, List.map_cons, List.nodup_cons] at hnd
  simp only [hpar, program_body]
  have hrel : Rel S K.scope0 (fun _ => none) (start ((S.ty, VName.out.chars) :: ps.map fun p => ((if S.c.L = .python then none else some (LangSpec.typename p.2)), p.1.chars)) (out :: ins)) out := by
    have hmemK : ∀ x, x ∈ K.params.map (·.1) ↔ x = .out ∨ x ∈ ps.map (·.1) := fun x => by rw [hp, List.map_cons, List.mem_cons]
    refine ⟨?_, ?_, ?_, ?_, ?_, ?_, ?_, hout⟩
    · intro y hy
      by_cases hyo : y = VName.out.chars
      · exact ⟨.out, hyo⟩
      · rw [start, Env.set_ne _ _ hyo] at hy
        exact start_names (ty := fun d => if S.c.L = .python then none else some (LangSpec.typename d)) hy
    · intro _ x hx
      have hx' : x ∉ K.params.map (·.1) := by
        intro hm
        simp only [Kernel.scope0, if_pos hm] at hx
        cases hx
      rw [hmemK, not_or] at hx'
      apply start_none
      simp only [List.map_cons, List.mem_cons, not_or, List.map_map]
      refine ⟨chars_ne hx'.1, ?_⟩
      intro hm
      obtain ⟨p, hp, e⟩ := List.mem_map.1 hm
      exact hx'.2 (List.mem_map.2 ⟨p, hp, chars_inj e⟩)
    · intro x hx
      simp only [Kernel.scope0] at hx
      split at hx <;> cases hx
    · intro x hx
      simp only [Kernel.scope0] at hx
      split at hx <;> cases hx
    · intro x hx hxo
      have hx' : x ∈ K.params.map (·.1) := by
        by_contra hm
        simp only [Kernel.scope0, if_neg hm] at hx
        cases hx
      have hx' := ((hmemK x).1 hx').resolve_left hxo
      obtain ⟨t, l, h1, h2, h3⟩ := start_arr (ty := fun d => if S.c.L = .python then none else some (LangSpec.typename d)) hlen hnd.2 hx'
      refine ⟨t, l, ?_, by rw [hmem]; exact h2, hel l h3⟩
      rw [start, Env.set_ne _ _ (chars_ne hxo)]
      exact h1
    · simp only [Kernel.scope0]
      rw [if_pos ((hmemK _).2 (.inl rfl))]
    · rw [start, Env.set_same]
  have hfin := run_sim h hb ht hrel hex (k := .done) (Q := fun p => p.1 VName.out.chars = some (.arr S.ty (applyWrites out st.writes)))
    (fun _ ρ' hr' => .ok hr'.out.2.1) (fun _ ρ' hr' => hr')
  refine Out.bind hfin ?_
  intro r hr
  simp only [hr]
  exact .ok rfl

/-- Everything assumed of the numbers, put together. -/
theorem setup_ok {L : Lang} {N : Num V} {dt : DType} {m : Machine V} {gpu : Str → Str → Option Int} {B : Int → Prop} (ops : Ops → Prop) (hI : IntLaws L N) (hA : Agrees L N dt m.A)
    (har : ∀ op i j r, iarith m.ar op i j = some r → iarith (if L = .python then .python else .c) op i j = some r ∧ B r)
    (hgpu : ∀ thread d v, m.gpu thread d = some v → L = .cuda ∧ gpu (if thread then "threadIdx".toList else "blockIdx".toList) (LangSpec.dimText d) = some v ∧ B v)
    (hd : ∀ n i, B n → 0 ≤ i → i < n → B i) (h0 : B 0 ∧ B 1) :
    Setup.Ok (V := V) ⟨⟨L, N, if L = .python then ["math".toList] else ["include <stdint.h>".toList, "include <math.h>".toList], gpu⟩, m, dt, B, ¬ Total L N dt B ops, ops⟩ where
  imports := rfl
  ints := hI
  elems := hA
  arith := har
  gpu := hgpu
  down := hd
  small := h0
  flit := fun i hi e ht => by have := ht.int i hi; rw [e] at this; cases this
  fint := fun op a b i j r hr hB ha hb e ht => by have := ht.intBin op a b i j r ha hb hr hB; rw [e] at this; cases this
  fcast := fun t a i h ha hB e ht => by have := ht.cast t a i h ha hB; rw [e] at this; cases this
  flitE := fun e ht => by have := ht.lit; rw [e] at this; cases this
  fdec := fun e ht => by have := ht.dec; rw [e] at this; cases this
  fun1 := fun op a ho hru ha e ht => by have := ht.un op a ho (by cases op <;> first | rfl | cases hru) ha; rw [e] at this; cases this
  fbin := fun op a b ho hru ha hb e ht => by have := ht.bin op a b ho (by cases op <;> first | rfl | cases hru) ha hb; rw [e] at this; cases this

theorem applyWrites_perm {ws ws' : List (Int × V)} (hp : ws.Perm ws') (hn : (ws.map (·.1)).Nodup) (hnn : ∀ w ∈ ws, 0 ≤ w.1) (buf : List V) : applyWrites buf ws = applyWrites buf ws' := by
  unfold applyWrites
  refine hp.foldl_eq' (fun x hx y hy z => ?_) buf
  by_cases hxy : x.1 = y.1
  · have : x = y := List.inj_on_of_nodup_map hn hx hy hxy
    subst this; rfl
  · exact List.set_comm _ _ (by have := hnn x hx; have := hnn y hy; omega)

theorem threadVars_ok (t : Thread) (th : Bool) (d : Dim3) :
    threadVars t (if th then "threadIdx".toList else "blockIdx".toList) (LangSpec.dimText d) = some (if th then t.thread d else t.block d) := by
  cases th <;> cases d <;> rfl

end Whale.Sem
