import Verif.Simd.Model
import Mathlib.Tactic.Linarith
import Mathlib.Tactic.Ring

/-! Lemmas about the loops over buffers. -/
namespace Verif.Simd

/-! ### Specification -/

/-- The buffer of `n` numbers at `p` belongs to the memory. -/
def Buffer (m : Mem) (p : Int) (n : Nat) : Prop := ∀ j : Nat, j < n → (m (p + j)).isSome

/-- Element `j` of the buffer at `p`. -/
def item (m : Mem) (p : Int) (j : Nat) : ℚ := (m (p + j)).getD 0

/-- The input at `p` is the output itself or does not overlap it. -/
def Apart (p out : Int) (n : Nat) : Prop := p = out ∨ p + n ≤ out ∨ out + n ≤ p

/-- The memory after an operation: element `j` of the output is `g j`, and nothing else has changed. -/
def Becomes (m m' : Mem) (out : Int) (n : Nat) (g : Nat → ℚ) : Prop :=
  (∀ j : Nat, j < n → m' (out + j) = some (g j)) ∧ ∀ a, a < out ∨ out + n ≤ a → m' a = m a

/-! ### Memory -/

/-- The memory once the first `k` elements of the output are written. -/
def filled (m : Mem) (out : Int) (g : Nat → ℚ) (k : Nat) : Mem :=
  fun a => if out ≤ a ∧ a < out + k then some (g (a - out).toNat) else m a

theorem filled_zero (m : Mem) (out : Int) (g : Nat → ℚ) : filled m out g 0 = m := by
  funext a
  have h : ¬ (out ≤ a ∧ a < out + ((0 : Nat) : Int)) := by push_cast; omega
  simp only [filled, if_neg h]

theorem filled_becomes (m : Mem) (out : Int) (g : Nat → ℚ) (n : Nat) : Becomes m (filled m out g n) out n g := by
  refine ⟨fun j hj => ?_, fun a ha => ?_⟩
  · have h : out ≤ out + (j : Int) ∧ out + (j : Int) < out + n := by omega
    simp only [filled, if_pos h]
    congr 2
    omega
  · have h : ¬ (out ≤ a ∧ a < out + (n : Int)) := by omega
    simp only [filled, if_neg h]

theorem filled_isSome {m : Mem} {out : Int} {g : Nat → ℚ} {k : Nat} {a : Int} (h : (m a).isSome) : (filled m out g k a).isSome := by
  unfold filled
  split
  · rfl
  · exact h

theorem write_filled {m : Mem} {out : Int} {g : Nat → ℚ} {n k : Nat} (hb : Buffer m out n) (hk : k < n) :
    write (filled m out g k) (out + k) (g k) = some (filled m out g (k + 1)) := by
  unfold write
  rw [if_pos (filled_isSome (hb k hk))]
  congr 1
  funext a
  by_cases ha : a = out + k
  · subst ha
    rw [Function.update_self]
    have h : out ≤ out + (k : Int) ∧ out + (k : Int) < out + ((k + 1 : Nat) : Int) := by push_cast; omega
    simp only [filled, if_pos h]
    congr 2
    omega
  · rw [Function.update_of_ne ha]
    unfold filled
    by_cases h : out ≤ a ∧ a < out + (k : Int)
    · rw [if_pos h, if_pos (by push_cast; omega)]
    · rw [if_neg h, if_neg (by push_cast; omega)]

theorem store4_filled {m : Mem} {out : Int} {g : Nat → ℚ} {n k : Nat} (hb : Buffer m out n) (hk : k + 4 ≤ n) (ha : (out + k) % 4 = 0) :
    store4 (filled m out g k) (out + k) ⟨g k, g (k + 1), g (k + 2), g (k + 3)⟩ = some (filled m out g (k + 4)) := by
  unfold store4
  rw [if_neg (by simpa using ha), write_filled hb (by omega)]
  simp only [Option.bind_eq_bind, Option.bind_some]
  have h1 : out + (k : Int) + 1 = out + ((k + 1 : Nat) : Int) := by push_cast; ring
  have h2 : out + (k : Int) + 2 = out + ((k + 2 : Nat) : Int) := by push_cast; ring
  have h3 : out + (k : Int) + 3 = out + ((k + 3 : Nat) : Int) := by push_cast; ring
  rw [h1, write_filled hb (by omega)]
  simp only [Option.bind_some]
  rw [h2, write_filled hb (by omega)]
  simp only [Option.bind_some]
  rw [h3, write_filled hb (by omega)]

theorem buffer_item {m : Mem} {p : Int} {n : Nat} (h : Buffer m p n) {j : Nat} (hj : j < n) : m (p + j) = some (item m p j) := by
  unfold item
  obtain ⟨x, hx⟩ := Option.isSome_iff_exists.mp (h j hj)
  rw [hx]; rfl

theorem filled_read {m : Mem} {p out : Int} {g : Nat → ℚ} {n k j : Nat} (ha : Apart p out n) (hb : Buffer m p n) (hk : k ≤ j) (hj : j < n) :
    filled m out g k (p + j) = some (item m p j) := by
  have h : ¬ (out ≤ p + (j : Int) ∧ p + (j : Int) < out + k) := by
    rcases ha with h | h | h <;> omega
  simp only [filled, if_neg h]
  exact buffer_item hb hj

theorem load4_of {m : Mem} {p : Int} {x : Nat → ℚ} {k : Nat} (ha : (p + k) % 4 = 0) (h : ∀ j : Nat, k ≤ j → j < k + 4 → m (p + j) = some (x j)) :
    load4 m (p + k) = some ⟨x k, x (k + 1), x (k + 2), x (k + 3)⟩ := by
  unfold load4
  rw [if_neg (by simpa using ha)]
  have h0 := h k (by omega) (by omega)
  have h1 := h (k + 1) (by omega) (by omega)
  have h2 := h (k + 2) (by omega) (by omega)
  have h3 := h (k + 3) (by omega) (by omega)
  push_cast at h1 h2 h3
  rw [← add_assoc] at h1 h2 h3
  simp [h0, h1, h2, h3]

theorem load4_filled {m : Mem} {p out : Int} {g : Nat → ℚ} {n k : Nat} (ha : Apart p out n) (hb : Buffer m p n) (hk : k + 4 ≤ n)
    (hal : (p + k) % 4 = 0) : load4 (filled m out g k) (p + k) = some ⟨item m p k, item m p (k + 1), item m p (k + 2), item m p (k + 3)⟩ :=
  load4_of hal (fun j h1 h2 => filled_read ha hb h1 (by omega))

/-! ### Loops -/

theorem loop_ends {S : Type*} {cond : S → Bool} {body : S → Option S} (I : S → Prop) (μ : S → Nat)
    (hb : ∀ s, I s → cond s = true → ∃ s', body s = some s' ∧ I s' ∧ μ s' < μ s) :
    ∀ fuel s, I s → μ s < fuel → ∃ s', loop cond body fuel s = some s' ∧ I s' ∧ cond s' = false := by
  intro fuel
  induction fuel with
  | zero => intro s _ h; omega
  | succ fuel ih =>
    intro s hi hm
    by_cases hc : cond s = true
    · obtain ⟨s', h1, h2, h3⟩ := hb s hi hc
      obtain ⟨s'', q1, q2, q3⟩ := ih s' h2 (by omega)
      exact ⟨s'', by simp [loop, hc, h1, q1], q2, q3⟩
    · have hc' : cond s = false := by simpa using hc
      exact ⟨s, by simp [loop, hc'], hi, hc'⟩

theorem mapM_all {α β : Type*} {l : List α} {f : α → Option β} {g : α → β} (h : ∀ x ∈ l, f x = some (g x)) : l.mapM f = some (l.map g) := by
  induction l with
  | nil => rfl
  | cons x l ih =>
    rw [List.mapM_cons, h x (by simp), ih (fun y hy => h y (by simp [hy]))]
    rfl

theorem unaligned_false {ps : List Int} : unaligned ps = false ↔ ∀ p ∈ ps, p % 4 = 0 := by
  simp [unaligned]

theorem prevAligned_le (p : Int) : prevAligned p ≤ p := by unfold prevAligned; omega

theorem prevAligned_mod (p : Int) : prevAligned p % 4 = 0 := by unfold prevAligned; omega

/-! ### Element by element -/

section
variable {m : Mem} {ins : List Int} {out : Int} {size : Nat} {f : List ℚ → ℚ → ℚ}

/-- The new element `j`. -/
def newItem (m : Mem) (ins : List Int) (out : Int) (f : List ℚ → ℚ → ℚ) (j : Nat) : ℚ := f (ins.map (fun p => item m p j)) (item m out j)

theorem scalarStep_filled (ho : Buffer m out size) (hi : ∀ p ∈ ins, Buffer m p size ∧ Apart p out size) {k : Nat} (hk : k < size) :
    scalarStep ins out f (filled m out (newItem m ins out f) k, k) = some (filled m out (newItem m ins out f) (k + 1), k + 1) := by
  unfold scalarStep
  simp only
  rw [mapM_all (g := fun p => item m p k) (fun p hp => filled_read (hi p hp).2 (hi p hp).1 le_rfl hk),
    filled_read (Or.inl rfl) ho le_rfl hk]
  simp only [Option.bind_eq_bind, Option.bind_some]
  have := write_filled (g := newItem m ins out f) ho hk
  rw [show f (ins.map fun p => item m p k) (item m out k) = newItem m ins out f k from rfl, this]
  rfl

theorem vectorStep_filled (ho : Buffer m out size) (hi : ∀ p ∈ ins, Buffer m p size ∧ Apart p out size) {k : Nat} (hk : k + 4 ≤ size)
    (hal : (out + k) % 4 = 0) (hal' : ∀ p ∈ ins, (p + k) % 4 = 0) :
    vectorStep ins out f (filled m out (newItem m ins out f) k, k) = some (filled m out (newItem m ins out f) (k + 4), k + 4) := by
  unfold vectorStep
  simp only
  rw [mapM_all (g := fun p => (⟨item m p k, item m p (k + 1), item m p (k + 2), item m p (k + 3)⟩ : V4))
      (fun p hp => load4_filled (hi p hp).2 (hi p hp).1 hk (hal' p hp)),
    load4_filled (Or.inl rfl) ho hk hal]
  simp only [Option.bind_eq_bind, Option.bind_some, List.map_map, Function.comp_def]
  have := store4_filled (g := newItem m ins out f) ho hk hal
  simp only [newItem] at this
  rw [this]
  rfl

theorem elementwise_ok {checked : List Int} {ref : Int} (ho : Buffer m out size) (hi : ∀ p ∈ ins, Buffer m p size ∧ Apart p out size)
    (hr : ref ∈ checked)
    (hc : ∀ k : Nat, (∀ p ∈ checked, (p + k) % 4 = 0) → (out + k) % 4 = 0 ∧ ∀ p ∈ ins, (p + k) % 4 = 0) :
    elementwise checked ins out ref f size m = some (filled m out (newItem m ins out f) size) := by
  unfold elementwise
  simp only
  have hlast := prevAligned_le (ref + size)
  have hlm := prevAligned_mod (ref + size)
  generalize prevAligned (ref + size) = last at hlast hlm ⊢
  let g := newItem m ins out f
  -- scalar head
  obtain ⟨s1, e1, ⟨k1, hk1, rfl⟩, c1⟩ := loop_ends (cond := fun s : Mem × Nat => unaligned (checked.map (· + (s.2 : Int))) && decide (ref + s.2 < last))
    (body := scalarStep ins out f) (fun s => ∃ k, k ≤ size ∧ s = (filled m out g k, k)) (fun s => size - s.2)
    (by
      rintro _ ⟨k, hk, rfl⟩ hcond
      simp only [Bool.and_eq_true, decide_eq_true_eq] at hcond
      have : k < size := by omega
      exact ⟨_, scalarStep_filled ho hi this, ⟨k + 1, by omega, rfl⟩, by simp only; omega⟩)
    (size + 1) (m, 0) ⟨0, by omega, by rw [filled_zero]⟩ (by simp)
  rw [e1]
  simp only [Option.bind_eq_bind, Option.bind_some]
  -- vectors
  have hal : ref + (k1 : Int) < last → ∀ p ∈ checked, (p + (k1 : Int)) % 4 = 0 := by
    intro hlt
    simp only [hlt, decide_true, Bool.and_true] at c1
    intro p hp
    exact unaligned_false.mp c1 _ (List.mem_map.mpr ⟨p, hp, rfl⟩)
  obtain ⟨s2, e2, ⟨k2, hk2, rfl, h2⟩, c2⟩ := loop_ends (cond := fun s : Mem × Nat => decide (ref + s.2 < last))
    (body := vectorStep ins out f) (fun s => ∃ k, k ≤ size ∧ s = (filled m out g k, k) ∧ (ref + (k : Int) < last → ∀ p ∈ checked, (p + (k : Int)) % 4 = 0))
    (fun s => size - s.2)
    (by
      rintro _ ⟨k, hk, rfl, ha⟩ hcond
      simp only [decide_eq_true_eq] at hcond
      have ha' := ha hcond
      have h4 := ha' ref hr
      have hk4 : k + 4 ≤ size := by omega
      obtain ⟨b1, b2⟩ := hc k ha'
      refine ⟨_, vectorStep_filled ho hi hk4 b1 b2, ⟨k + 4, hk4, rfl, fun _ p hp => ?_⟩, by simp only; omega⟩
      have := ha' p hp
      push_cast
      omega)
    (size + 1) (filled m out g k1, k1) ⟨k1, hk1, rfl, hal⟩ (by simp only; omega)
  rw [e2]
  simp only [Option.bind_some]
  -- scalar tail
  obtain ⟨s3, e3, ⟨k3, hk3, rfl⟩, c3⟩ := loop_ends (cond := fun s : Mem × Nat => decide (ref + s.2 < ref + size))
    (body := scalarStep ins out f) (fun s => ∃ k, k ≤ size ∧ s = (filled m out g k, k)) (fun s => size - s.2)
    (by
      rintro _ ⟨k, hk, rfl⟩ hcond
      simp only [decide_eq_true_eq] at hcond
      have : k < size := by omega
      exact ⟨_, scalarStep_filled ho hi this, ⟨k + 1, by omega, rfl⟩, by simp only; omega⟩)
    (size + 1) (filled m out g k2, k2) ⟨k2, hk2, rfl⟩ (by simp only; omega)
  rw [e3]
  simp only [decide_eq_false_iff_not] at c3
  have : k3 = size := by omega
  subst this
  rfl

theorem elementwiseScalar_ok (ho : Buffer m out size) (hi : ∀ p ∈ ins, Buffer m p size ∧ Apart p out size) :
    elementwiseScalar ins out f size m = some (filled m out (newItem m ins out f) size) := by
  unfold elementwiseScalar
  obtain ⟨s3, e3, ⟨k3, hk3, rfl⟩, c3⟩ := loop_ends (cond := fun s : Mem × Nat => decide (s.2 < size))
    (body := scalarStep ins out f) (fun s => ∃ k, k ≤ size ∧ s = (filled m out (newItem m ins out f) k, k)) (fun s => size - s.2)
    (by
      rintro _ ⟨k, hk, rfl⟩ hcond
      simp only [decide_eq_true_eq] at hcond
      exact ⟨_, scalarStep_filled ho hi hcond, ⟨k + 1, by omega, rfl⟩, by simp only; omega⟩)
    (size + 1) (m, 0) ⟨0, by omega, by rw [filled_zero]⟩ (by simp)
  rw [e3]
  simp only [decide_eq_false_iff_not] at c3
  have : k3 = size := by omega
  subst this
  rfl

end

end Verif.Simd
