import Verif.BitArray.Model
import Mathlib.Data.List.Basic

/-! C50: slot bitmaps behave as sets. -/
namespace Verif.BitArray

/-! ### Specification: a set of slots as a Boolean function. -/

def Op.index : Op → Nat
  | .set i | .reset i | .setTo i _ | .flip i => i
  | .clear => 0

def Op.isClear : Op → Bool
  | .clear => true
  | _ => false

/-- A call is legal when the slot is below the declared size. -/
def Op.Legal (n : Nat) (op : Op) : Prop := op.isClear = true ∨ op.index < n

def specStep (s : Nat → Bool) : Op → Nat → Bool
  | .set i => fun k => if k = i then true else s k
  | .reset i => fun k => if k = i then false else s k
  | .setTo i b => fun k => if k = i then b else s k
  | .flip i => fun k => if k = i then !s k else s k
  | .clear => fun _ => false

def specRun (ops : List Op) : Nat → Bool := ops.foldl specStep (fun _ => false)

/-! ### Lemmas -/

/-- Bit `k` of the byte vector, `false` outside. -/
def bitAt (d : List (BitVec 8)) (k : Nat) : Bool := ((d[k / 8]?).map (·.getLsbD (k % 8))).getD false

theorem bit_getLsbD (i j : Nat) (hj : j < 8) : (bit i).getLsbD j = decide (j = i % 8) := by
  have h : i % 8 < 8 := Nat.mod_lt _ (by omega)
  have key : ∀ (a b : Fin 8), (BitVec.ofNat 8 (1 <<< a.1)).getLsbD b.1 = decide (b.1 = a.1) := by decide
  exact key ⟨i % 8, h⟩ ⟨j, hj⟩

theorem and_bit_ne (x : BitVec 8) (i : Nat) : ((x &&& bit i) != 0#8) = x.getLsbD (i % 8) := by
  have h : i % 8 < 8 := Nat.mod_lt _ (by omega)
  rw [Bool.eq_iff_iff, bne_iff_ne]
  constructor
  · intro hne
    by_contra hf
    apply hne
    apply BitVec.eq_of_getLsbD_eq
    intro j hj
    rw [BitVec.getLsbD_and, bit_getLsbD _ _ hj]
    by_cases hji : j = i % 8
    · subst hji; simp at hf; simp [hf]
    · simp [hji]
  · intro ht hz
    have := congrArg (·.getLsbD (i % 8)) hz
    simp [bit_getLsbD _ _ h, ht] at this

/-- Invariant: size, agreement with the set, nothing beyond the declared size. -/
def Rep (n : Nat) (d : List (BitVec 8)) (s : Nat → Bool) : Prop :=
  d.length = byteSize n ∧ (∀ k, bitAt d k = s k) ∧ ∀ k, n ≤ k → s k = false

theorem modify_spec (n : Nat) (d : List (BitVec 8)) (i : Nat) (hi : i < n) (hl : d.length = byteSize n)
    (f : BitVec 8 → BitVec 8) (g : Bool → Bool)
    (hf : ∀ x j, j < 8 → (f x).getLsbD j = if j = i % 8 then g (x.getLsbD j) else x.getLsbD j) :
    ∃ d', modify d i f = some d' ∧ d'.length = byteSize n ∧
      ∀ k, bitAt d' k = if k = i then g (bitAt d k) else bitAt d k := by
  have hlt : i / 8 < d.length := by rw [hl]; unfold byteSize; omega
  unfold modify
  rw [List.getElem?_eq_getElem hlt]
  refine ⟨_, rfl, by simpa using hl, ?_⟩
  intro k
  unfold bitAt
  have hk8 : k % 8 < 8 := Nat.mod_lt _ (by omega)
  by_cases hk : k / 8 = i / 8
  · rw [hk, List.getElem?_set_self hlt, List.getElem?_eq_getElem hlt]
    simp only [Option.map_some, Option.getD_some]
    rw [hf _ _ hk8]
    by_cases h2 : k = i
    · subst h2; simp
    · have : k % 8 ≠ i % 8 := by omega
      simp [this, h2]
  · rw [List.getElem?_set_ne (fun h => hk h.symm)]
    have : k ≠ i := by rintro rfl; exact hk rfl
    simp [this]

theorem step_spec (n : Nat) (d : List (BitVec 8)) (s : Nat → Bool) (op : Op) (h : Rep n d s) (hop : op.Legal n) :
    ∃ d', step n d op = some d' ∧ Rep n d' (specStep s op) := by
  obtain ⟨hl, hb, hz⟩ := h
  have fin : ∀ (i : Nat) (g : Bool → Bool) (f : BitVec 8 → BitVec 8), i < n →
      (∀ x j, j < 8 → (f x).getLsbD j = if j = i % 8 then g (x.getLsbD j) else x.getLsbD j) →
      ∃ d', modify d i f = some d' ∧ Rep n d' (fun k => if k = i then g (s k) else s k) := by
    intro i g f hi hf
    obtain ⟨d', h1, h2, h3⟩ := modify_spec n d i hi hl f g hf
    refine ⟨d', h1, h2, ?_, ?_⟩
    · intro k; rw [h3, hb]
    · intro k hk
      have : k ≠ i := by omega
      simp [this, hz k hk]
  have hset : ∀ i, i < n → ∃ d', set d i = some d' ∧ Rep n d' (fun k => if k = i then true else s k) := by
    intro i hi
    exact fin i (fun _ => true) _ hi (by
      intro x j hj; rw [BitVec.getLsbD_or, bit_getLsbD _ _ hj]; by_cases h : j = i % 8 <;> simp [h])
  have hreset : ∀ i, i < n → ∃ d', reset d i = some d' ∧ Rep n d' (fun k => if k = i then false else s k) := by
    intro i hi
    exact fin i (fun _ => false) _ hi (by
      intro x j hj; rw [BitVec.getLsbD_and, BitVec.getLsbD_not, bit_getLsbD _ _ hj]
      by_cases h : j = i % 8
      · simp [h]
      · simp [h, hj])
  rcases op with i | i | ⟨i, b⟩ | i | _
  · exact hset i (by simpa [Op.Legal, Op.isClear, Op.index] using hop)
  · exact hreset i (by simpa [Op.Legal, Op.isClear, Op.index] using hop)
  · have hi : i < n := by simpa [Op.Legal, Op.isClear, Op.index] using hop
    cases b
    · exact hreset i hi
    · exact hset i hi
  · have hi : i < n := by simpa [Op.Legal, Op.isClear, Op.index] using hop
    exact fin i (fun b => !b) _ hi (by
      intro x j hj; rw [BitVec.getLsbD_xor, bit_getLsbD _ _ hj]; by_cases h : j = i % 8 <;> simp [h])
  · refine ⟨_, rfl, by simp [clear], ?_, by simp [specStep]⟩
    intro k
    simp only [bitAt, clear, specStep, List.getElem?_replicate]
    split <;> simp

theorem run_spec (n : Nat) (ops : List Op) : ∀ (d : List (BitVec 8)) (s : Nat → Bool), Rep n d s →
    (∀ op ∈ ops, op.Legal n) → ∃ d', run n d ops = some d' ∧ Rep n d' (ops.foldl specStep s) := by
  induction ops with
  | nil => intro d s h _; exact ⟨d, rfl, h⟩
  | cons op ops ih =>
    intro d s h hl
    obtain ⟨d1, h1, h2⟩ := step_spec n d s op h (hl op (by simp))
    obtain ⟨d2, g1, g2⟩ := ih d1 _ h2 (fun o ho => hl o (by simp [ho]))
    exact ⟨d2, by simp [run, h1, g1], g2⟩

theorem rep_init (n : Nat) : Rep n (init n) (fun _ => false) := by
  refine ⟨by simp [init], ?_, by simp⟩
  intro k
  simp only [bitAt, init, List.getElem?_replicate]
  split <;> simp

theorem lastMask_getLsbD (n j : Nat) (hj : j < 8) : (lastMask n).getLsbD j = decide (j < n % 8) := by
  have h : n % 8 < 8 := Nat.mod_lt _ (by omega)
  have key : ∀ (a b : Fin 8), (BitVec.ofNat 8 ((1 <<< a.1) - 1)).getLsbD b.1 = decide (b.1 < a.1) := by decide
  exact key ⟨n % 8, h⟩ ⟨j, hj⟩

theorem byte_eq_iff (x y : BitVec 8) : x = y ↔ ∀ j, j < 8 → x.getLsbD j = y.getLsbD j :=
  ⟨fun h j _ => by rw [h], fun h => BitVec.eq_of_getLsbD_eq (fun j hj => h j hj)⟩

theorem getLsbD_of_rep {n d s} (h : Rep n d s) (b j : Nat) (hb : b < d.length) (hj : j < 8) :
    (d[b]).getLsbD j = s (8 * b + j) := by
  rw [← h.2.1]
  unfold bitAt
  have e1 : (8 * b + j) / 8 = b := by omega
  have e2 : (8 * b + j) % 8 = j := by omega
  rw [e1, e2, List.getElem?_eq_getElem hb]
  rfl

theorem ff_getLsbD (j : Nat) (hj : j < 8) : (0xff#8).getLsbD j = true := by
  have : ∀ b : Fin 8, (0xff#8).getLsbD b.1 = true := by decide
  exact this ⟨j, hj⟩

theorem any_of_rep {n d s} (h : Rep n d s) : any n d = some (decide (∃ k, k < n ∧ s k = true)) := by
  have hl := h.1
  unfold any
  by_cases h1 : (d.take (n / 8)).any (· != 0x00#8) = true
  · rw [if_pos h1]
    congr 1
    symm
    rw [decide_eq_true_eq]
    obtain ⟨x, hx, hne⟩ := List.any_eq_true.mp h1
    obtain ⟨b, hb, hbd⟩ := List.mem_take_iff_getElem.mp hx
    rw [bne_iff_ne] at hne
    have : ∃ j, j < 8 ∧ x.getLsbD j = true := by
      by_contra hc
      push Not at hc
      apply hne
      rw [byte_eq_iff]
      intro j hj
      have := hc j hj
      simp only [Bool.not_eq_true] at this
      simp [this]
    obtain ⟨j, hj, hjt⟩ := this
    refine ⟨8 * b + j, by omega, ?_⟩
    rw [← getLsbD_of_rep h b j (by omega) hj, hbd]
    exact hjt
  · rw [if_neg h1]
    have hz : ∀ k, k < 8 * (n / 8) → s k = false := by
      intro k hk
      have hb : k / 8 < d.length := by rw [hl]; unfold byteSize; omega
      have e := getLsbD_of_rep h (k / 8) (k % 8) hb (Nat.mod_lt _ (by omega))
      rw [Nat.div_add_mod] at e
      rw [← e]
      have : d[k / 8] = 0#8 := by
        by_contra hne
        apply h1
        rw [List.any_eq_true]
        refine ⟨d[k / 8], ?_, by simpa using hne⟩
        rw [List.mem_take_iff_getElem]
        exact ⟨k / 8, by omega, rfl⟩
      rw [this]; simp
    by_cases h2 : n % 8 = 0
    · rw [if_pos h2]
      congr 1
      symm
      rw [decide_eq_false_iff_not]
      rintro ⟨k, hk, hs⟩
      rw [hz k (by omega)] at hs
      exact absurd hs (by simp)
    · rw [if_neg h2]
      have hb : n / 8 < d.length := by rw [hl]; unfold byteSize; omega
      rw [List.getElem?_eq_getElem hb]
      simp only [Option.map_some, Option.some.injEq]
      rw [Bool.eq_iff_iff, bne_iff_ne, decide_eq_true_eq]
      constructor
      · intro hne
        have : ∃ j, j < 8 ∧ (d[n / 8] &&& lastMask n).getLsbD j = true := by
          by_contra hc
          push Not at hc
          apply hne
          rw [byte_eq_iff]
          intro j hj
          have := hc j hj
          simp only [Bool.not_eq_true] at this
          rw [this]; simp
        obtain ⟨j, hj, hjt⟩ := this
        rw [BitVec.getLsbD_and, lastMask_getLsbD _ _ hj, Bool.and_eq_true, decide_eq_true_eq] at hjt
        refine ⟨8 * (n / 8) + j, by omega, ?_⟩
        rw [← getLsbD_of_rep h _ j hb hj]; exact hjt.1
      · rintro ⟨k, hk, hs⟩ hz0
        have hge : 8 * (n / 8) ≤ k := by
          by_contra hlt
          rw [hz k (by omega)] at hs
          exact absurd hs (by simp)
        have hk8 : k - 8 * (n / 8) < 8 := by omega
        have := congrArg (·.getLsbD (k - 8 * (n / 8))) hz0
        simp only [BitVec.getLsbD_and, lastMask_getLsbD _ _ hk8] at this
        rw [getLsbD_of_rep h _ _ hb hk8] at this
        have e : 8 * (n / 8) + (k - 8 * (n / 8)) = k := by omega
        have e2 : k - 8 * (n / 8) < n % 8 := by omega
        rw [e, hs] at this
        simp [e2] at this

theorem all_of_rep {n d s} (h : Rep n d s) : all n d = some (decide (∀ k, k < n → s k = true)) := by
  have hl := h.1
  unfold all
  by_cases h1 : (d.take (n / 8)).any (· != 0xff#8) = true
  · rw [if_pos h1]
    congr 1
    symm
    rw [decide_eq_false_iff_not]
    intro hall
    obtain ⟨x, hx, hne⟩ := List.any_eq_true.mp h1
    obtain ⟨b, hb, hbd⟩ := List.mem_take_iff_getElem.mp hx
    rw [bne_iff_ne] at hne
    apply hne
    rw [byte_eq_iff]
    intro j hj
    rw [ff_getLsbD _ hj, ← hbd, getLsbD_of_rep h b j (by omega) hj]
    exact hall _ (by omega)
  · rw [if_neg h1]
    have hz : ∀ k, k < 8 * (n / 8) → s k = true := by
      intro k hk
      have hb : k / 8 < d.length := by rw [hl]; unfold byteSize; omega
      have e := getLsbD_of_rep h (k / 8) (k % 8) hb (Nat.mod_lt _ (by omega))
      rw [Nat.div_add_mod] at e
      rw [← e]
      have : d[k / 8] = 0xff#8 := by
        by_contra hne
        apply h1
        rw [List.any_eq_true]
        refine ⟨d[k / 8], ?_, by simpa using hne⟩
        rw [List.mem_take_iff_getElem]
        exact ⟨k / 8, by omega, rfl⟩
      rw [this]; exact ff_getLsbD _ (Nat.mod_lt _ (by omega))
    by_cases h2 : n % 8 = 0
    · rw [if_pos h2]
      congr 1
      symm
      rw [decide_eq_true_eq]
      intro k hk
      exact hz k (by omega)
    · rw [if_neg h2]
      have hb : n / 8 < d.length := by rw [hl]; unfold byteSize; omega
      rw [List.getElem?_eq_getElem hb]
      simp only [Option.map_some, Option.some.injEq]
      rw [Bool.eq_iff_iff, beq_iff_eq, decide_eq_true_eq, byte_eq_iff]
      constructor
      · intro heq k hk
        by_cases hlt : k < 8 * (n / 8)
        · exact hz k hlt
        · have hk8 : k - 8 * (n / 8) < 8 := by omega
          have := heq (k - 8 * (n / 8)) hk8
          rw [getLsbD_of_rep h _ _ hb hk8, lastMask_getLsbD _ _ hk8] at this
          have e : 8 * (n / 8) + (k - 8 * (n / 8)) = k := by omega
          have e2 : k - 8 * (n / 8) < n % 8 := by omega
          rw [e] at this
          rw [this]; simp [e2]
      · intro hall j hj
        rw [getLsbD_of_rep h _ _ hb hj, lastMask_getLsbD _ _ hj]
        by_cases hjn : j < n % 8
        · rw [hall _ (by omega)]; simp [hjn]
        · rw [h.2.2 _ (by omega)]; simp [hjn]

/-! ### Property -/

/-- For every size and every history of legal calls on a fresh bitmap: no access outside of its bytes,
`test` answers membership in the abstract set for every legal slot, and `any`/`all`/`none` agree with it. -/
theorem bitarray_refines_set (n : Nat) (ops : List Op) (hlegal : ∀ op ∈ ops, op.Legal n) :
    ∃ d, run n (init n) ops = some d ∧
      (∀ i, i < n → test d i = some (specRun ops i)) ∧
      any n d = some (decide (∃ k, k < n ∧ specRun ops k = true)) ∧
      all n d = some (decide (∀ k, k < n → specRun ops k = true)) ∧
      none' n d = some (decide (∀ k, k < n → specRun ops k = false)) := by
  obtain ⟨d, h1, h2⟩ := run_spec n ops (init n) _ (rep_init n) hlegal
  refine ⟨d, h1, ?_, any_of_rep h2, all_of_rep h2, ?_⟩
  · intro i hi
    have hb : i / 8 < d.length := by rw [h2.1]; unfold byteSize; omega
    unfold test
    rw [List.getElem?_eq_getElem hb, Option.map_some, and_bit_ne]
    congr 1
    have := getLsbD_of_rep h2 (i / 8) (i % 8) hb (Nat.mod_lt _ (by omega))
    rw [Nat.div_add_mod] at this
    exact this
  · unfold none'
    rw [any_of_rep h2]
    simp only [Option.map_some, Option.some.injEq]
    rw [Bool.eq_iff_iff]
    simp only [Bool.not_eq_true', decide_eq_false_iff_not, decide_eq_true_eq]
    constructor
    · intro h k hk
      by_contra hc
      exact h ⟨k, hk, by simpa [specRun] using hc⟩
    · rintro h ⟨k, hk, hs⟩
      have hk' : List.foldl specStep (fun _ => false) ops k = false := h k hk
      rw [hk'] at hs
      exact absurd hs (by simp)

example : (∀ op ∈ [Op.set 9, .setTo 3 true, .flip 9, .set 11], op.Legal 12) ∧
    run 12 (init 12) [.set 9, .setTo 3 true, .flip 9, .set 11] = some [8#8, 8#8] ∧
    any 12 [8#8, 8#8] = some true ∧ test [8#8, 8#8] 11 = some true := by
  refine ⟨by simp [Op.Legal, Op.isClear, Op.index], by decide, by decide, by decide⟩

end Verif.BitArray
