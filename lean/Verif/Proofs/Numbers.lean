import Verif.Spec.Numbers
/-
The numbers of Python and C satisfy the assumptions of C48.
-/
namespace Whale.Sem
open Whale Syntax
variable {F S D V : Type}

/-- The arithmetic defined from the numbers of the language agrees with them. -/
theorem scalarOf_agrees {L : Lang} {N : Num V} {dt : DType} (junk : V) (hc : ∀ a v, convert N (elemType L dt) a = some v → Elem L N dt v) : Agrees L N dt (scalarOf L N dt junk) where
  conv := hc
  int i v h := by simp [scalarOf, h]
  dec v h := by simp [scalarOf, h]
  un op a v _ h := by simp [scalarOf, h]
  bin op a b v _ _ h := by simp [scalarOf, h]

theorem py_conv {N : Num V} {dt : DType} (a v : V) (_ : convert N (elemType .python dt) a = some v) : Elem .python N dt v := rfl

theorem py_int (O : Floats F) : IntLaws .python (pyNum O) where
  int n v h := by cases h; rfl
  neg a i v ha h := by cases a <;> cases ha; cases h; rfl
  bin op a b i j r v ha hb hr h := by
    cases a <;> cases ha
    cases b <;> cases hb
    simp only [pyNum] at h
    by_cases hop : op = .div
    · subst hop; simp [intBin] at hr
    · rw [if_neg hop, hr] at h
      cases h; rfl
  truth a i ha := by cases a <;> cases ha; rfl
  cast t a i v _ _ h := by cases h

theorem in32_eq {i : Int} {v : CVal S D} (h : CVal.in32 i = some v) : v = .i32 i ∧ -2147483648 ≤ i ∧ i < 2147483648 := by
  unfold CVal.in32 at h
  split at h
  · cases h; exact ⟨rfl, by assumption⟩
  · cases h

theorem in64_eq {i : Int} {v : CVal S D} (h : CVal.in64 i = some v) : v = .i64 i ∧ -9223372036854775808 ≤ i ∧ i < 9223372036854775808 := by
  unfold CVal.in64 at h
  split at h
  · cases h; exact ⟨rfl, by assumption⟩
  · cases h

theorem intBin_c {L : Lang} (hL : L ≠ .python) (op : BOp) (i j : Int) : intBin L op i j = intBin .clang op i j := by
  cases L <;> first | exact absurd rfl hL | (cases op <;> rfl)

theorem c_int {L : Lang} (hL : L ≠ .python) (o : Bool) (O : CFloats S D) : IntLaws L (cNum o O) where
  int n v h := by
    simp only [cNum] at h
    split at h
    · cases h; rfl
    · split at h <;> cases h; rfl
  neg a i v ha h := by
    cases a <;> cases ha
    · obtain ⟨rfl, _⟩ := in32_eq h; rfl
    · obtain ⟨rfl, _⟩ := in64_eq h; rfl
  bin op a b i j r v ha hb hr h := by
    rw [intBin_c hL] at hr
    have key : ∀ {p : Prop} [Decidable p] {v : CVal S D}, (if p then CVal.in32 r else CVal.in64 r) = some v → (cNum o O).asInt v = some r := by
      intro p _ v h
      split at h
      · obtain ⟨rfl, _⟩ := in32_eq h; rfl
      · obtain ⟨rfl, _⟩ := in64_eq h; rfl
    cases a <;> cases ha <;> cases b <;> cases hb <;> simp only [cNum, hr, Option.bind_some] at h
    · obtain ⟨rfl, _⟩ := in32_eq h; rfl
    · exact key h
    · exact key h
    · exact key h
  truth a i ha := by cases a <;> cases ha <;> rfl
  cast t a i v ht ha h := by
    simp only [cNum] at h
    rcases ht with rfl | rfl
    · rw [if_pos (.inl rfl)] at h
      cases a <;> cases ha <;> (obtain ⟨rfl, _⟩ := in32_eq h; rfl)
    · rw [if_neg (by decide), if_pos rfl] at h
      cases a <;> cases ha <;> (obtain ⟨rfl, _⟩ := in64_eq h; rfl)

theorem c_conv {L : Lang} (hL : L ≠ .python) (o : Bool) (O : CFloats S D) (dt : DType) (a v : CVal S D) (h : convert (cNum o O) (elemType L dt) a = some v) : Elem L (cNum o O) dt v := by
  unfold Elem
  unfold elemType at h ⊢
  rw [if_neg hL] at h ⊢
  simp only [convert, cNum] at h ⊢
  have k32 : ∀ {i : Int} {v : CVal S D}, CVal.in32 i = some v → ∃ i, v = .i32 i ∧ CVal.in32 i = some v := by
    intro i v h; exact ⟨i, (in32_eq h).1, h⟩
  have k64 : ∀ {i : Int} {v : CVal S D}, CVal.in64 i = some v → ∃ i, v = .i64 i ∧ CVal.in64 i = some v := by
    intro i v h; exact ⟨i, (in64_eq h).1, h⟩
  cases dt
  · rw [if_pos (by decide)] at h ⊢
    have : ∃ i, v = .i32 i ∧ CVal.in32 i = some v := by
      cases a
      · exact k32 h
      · exact k32 h
      · obtain ⟨i, _, h⟩ := Option.bind_eq_some_iff.1 h; exact k32 h
      · obtain ⟨i, _, h⟩ := Option.bind_eq_some_iff.1 h; exact k32 h
    obtain ⟨i, rfl, h⟩ := this
    exact h
  · rw [if_neg (by decide), if_pos (by decide)] at h ⊢
    have : ∃ i, v = .i64 i ∧ CVal.in64 i = some v := by
      cases a
      · exact k64 h
      · exact k64 h
      · obtain ⟨i, _, h⟩ := Option.bind_eq_some_iff.1 h; exact k64 h
      · obtain ⟨i, _, h⟩ := Option.bind_eq_some_iff.1 h; exact k64 h
    obtain ⟨i, rfl, h⟩ := this
    exact h
  · rw [if_neg (by decide), if_neg (by decide), if_pos (by decide)] at h ⊢
    obtain ⟨x, _, rfl⟩ := Option.map_eq_some_iff.1 h
    rfl
  · rw [if_neg (by decide), if_neg (by decide), if_neg (by decide), if_pos (by decide)] at h ⊢
    obtain ⟨x, _, rfl⟩ := Option.map_eq_some_iff.1 h
    rfl

/-- In C integers of 32 bits are numbers, and so are the results of operations on integers that fit in 32 bits. -/
theorem c_total {L : Lang} (hL : L ≠ .python) (o : Bool) (O : CFloats S D) {dt : DType} {ops : Ops → Prop} {B : Int → Prop} (hB : ∀ i, B i → -2147483647 ≤ i ∧ i ≤ 2147483647)
    (h : ElementsTotal L (cNum o O) dt ops) : Total L (cNum o O) dt B ops where
  int i hi := by
    have := hB i hi
    unfold intV
    simp only [cNum]
    have h1 : i.natAbs < 2147483648 := by omega
    simp only [if_pos h1]
    split
    · simp only [Option.bind_some, CVal.in32]
      rw [if_pos (by omega)]; rfl
    · rfl
  intBin op a b i j r ha hb hr hi := by
    have := hB r hi
    rw [intBin_c hL] at hr
    have h32 : (CVal.in32 r : Option (CVal S D)).isSome := by unfold CVal.in32; rw [if_pos (by omega)]; rfl
    have h64 : (CVal.in64 r : Option (CVal S D)).isSome := by unfold CVal.in64; rw [if_pos (by omega)]; rfl
    cases a <;> cases ha <;> cases b <;> cases hb <;> simp only [cNum, hr, Option.bind_some]
    · exact h32
    all_goals split <;> assumption
  cast t a i ht ha hi := by
    have := hB i hi
    have h32 : (CVal.in32 i : Option (CVal S D)).isSome := by unfold CVal.in32; rw [if_pos (by omega)]; rfl
    have h64 : (CVal.in64 i : Option (CVal S D)).isSome := by unfold CVal.in64; rw [if_pos (by omega)]; rfl
    simp only [cNum]
    rcases ht with rfl | rfl
    · rw [if_pos (.inl rfl)]
      cases a <;> cases ha <;> exact h32
    · rw [if_neg (by decide), if_pos rfl]
      cases a <;> cases ha <;> exact h64
  lit := h.lit
  dec := h.dec
  un := h.un
  bin := h.bin

theorem toSingle_some {O : CFloats S D} (h : Complete O.single) (v : CVal S D) : (v.toSingle O).isSome := by
  cases v <;> first | rfl | exact h.ofInt _

theorem toDouble_some {O : CFloats S D} (h : Complete O.double) (v : CVal S D) : (v.toDouble O).isSome := by
  cases v <;> first | rfl | exact h.ofInt _

/-- Floating point elements of C: all operations but the remainder have a result. -/
theorem c_float_total {L : Lang} (hL : L ≠ .python) (o : Bool) {O : CFloats S D} (hs : Complete O.single) (hd : Complete O.double) {dt : DType} (hdt : dt.isInt = false) {ops : Ops → Prop}
    (hm : ¬ ops .Mod) : ElementsTotal L (cNum o O) dt ops := by
  have hcast : ∀ v, (convert (cNum o O) (elemType L dt) v).isSome := by
    intro v
    unfold elemType
    rw [if_neg hL]
    simp only [convert, cNum]
    cases dt with
    | int32 => cases hdt
    | int64 => cases hdt
    | float32 =>
      rw [if_neg (by decide), if_neg (by decide), if_pos (by decide), Option.isSome_map]
      exact toSingle_some hs v
    | float64 =>
      rw [if_neg (by decide), if_neg (by decide), if_neg (by decide), if_pos (by decide), Option.isSome_map]
      exact toDouble_some hd v
  have hbind : ∀ x : Option (CVal S D), x.isSome → (x.bind (convert (cNum o O) (elemType L dt))).isSome := by
    intro x hx
    obtain ⟨v, rfl⟩ := Option.isSome_iff_exists.1 hx
    exact hcast v
  have hel : ∀ a, Elem L (cNum o O) dt a → (∃ x, a = .f32 x) ∨ ∃ x, a = .f64 x := by
    intro a ha
    unfold Elem elemType at ha
    rw [if_neg hL] at ha
    simp only [convert, cNum] at ha
    cases dt with
    | int32 => cases hdt
    | int64 => cases hdt
    | float32 =>
      rw [if_neg (by decide), if_neg (by decide), if_pos (by decide)] at ha
      obtain ⟨x, _, rfl⟩ := Option.map_eq_some_iff.1 ha
      exact .inl ⟨x, rfl⟩
    | float64 =>
      rw [if_neg (by decide), if_neg (by decide), if_neg (by decide), if_pos (by decide)] at ha
      obtain ⟨x, _, rfl⟩ := Option.map_eq_some_iff.1 ha
      exact .inr ⟨x, rfl⟩
  have hfn : ∀ f a, f ∈ functions → ((cNum o O).call f [a]).isSome := by
    intro f a hf
    simp only [cNum]
    split
    · obtain ⟨x, hx⟩ := Option.isSome_iff_exists.1 (toSingle_some hs a)
      simpa [hx] using hs.fn f x hf
    · obtain ⟨x, hx⟩ := Option.isSome_iff_exists.1 (toDouble_some hd a)
      simpa [hx] using hd.fn f x hf
  have hpow : ∀ a b, ((cNum o O).call "pow".toList [a, b]).isSome := by
    intro a b
    simp only [cNum]
    split
    · obtain ⟨x, hx⟩ := Option.isSome_iff_exists.1 (toSingle_some hs a)
      obtain ⟨y, hy⟩ := Option.isSome_iff_exists.1 (toSingle_some hs b)
      simpa [hx, hy] using hs.pow x y
    · obtain ⟨x, hx⟩ := Option.isSome_iff_exists.1 (toDouble_some hd a)
      obtain ⟨y, hy⟩ := Option.isSome_iff_exists.1 (toDouble_some hd b)
      simpa [hx, hy] using hd.pow x y
  have hint : ∀ b : Bool, ((cNum o O).int (if b then 1 else 0)).isSome := by intro b; cases b <;> rfl
  have hbin : ∀ op a b, Elem L (cNum o O) dt a → Elem L (cNum o O) dt b → isCmp op = true ∨ op = .add ∨ op = .sub ∨ op = .mul ∨ op = .div → ((cNum o O).bin op a b).isSome := by
    intro op a b ha hb hop
    have hcv : (CVal.bin O op a b).isSome := by
      obtain ⟨x, hx⟩ := Option.isSome_iff_exists.1 (toSingle_some hs a)
      obtain ⟨y, hy⟩ := Option.isSome_iff_exists.1 (toSingle_some hs b)
      obtain ⟨x', hx'⟩ := Option.isSome_iff_exists.1 (toDouble_some hd a)
      obtain ⟨y', hy'⟩ := Option.isSome_iff_exists.1 (toDouble_some hd b)
      unfold CVal.bin
      split
      · simp only [hx', hy', Option.bind_eq_bind, Option.bind_some]
        split
        · rfl
        · rw [Option.isSome_map]; exact hd.bin op x' y' (hop.resolve_left (by assumption))
      · simp only [hx, hy, Option.bind_eq_bind, Option.bind_some]
        split
        · rfl
        · rw [Option.isSome_map]; exact hs.bin op x y (hop.resolve_left (by assumption))
    rcases hel a ha with ⟨x, rfl⟩ | ⟨x, rfl⟩ <;> rcases hel b hb with ⟨y, rfl⟩ | ⟨y, rfl⟩ <;> exact hcv
  refine ⟨hbind _ rfl, hbind _ rfl, ?_, ?_⟩
  · intro op a _ hu ha
    apply hbind
    unfold unVal
    split
    · rcases hel a ha with ⟨x, rfl⟩ | ⟨x, rfl⟩ <;> rfl
    · rename_i hn
      apply hfn
      cases op <;> first | exact absurd rfl hn | decide | exact absurd hu (by decide)
  · intro op a b hop hu ha hb
    apply hbind
    unfold binVal
    split
    · exact hpow a b
    · split
      · exact hint _
      · split
        · exact hint _
        · apply hbin _ _ _ ha hb
          have hop' : op ≠ .Mod := by rintro rfl; exact hm hop
          cases L <;> first | exact absurd rfl hL | (cases op <;> first | contradiction | exact absurd hu (by decide) | (simp [opOf, isCmp]; done))

end Whale.Sem
