import Verif.CCMap.Model

/-! C02: the controller map behaves as a finite map. -/
namespace Verif.CCMap
open Verif.Common

variable {V : Type}

/-! ### Specification: a plain function from controller number to optional value. -/

/-- Specification of one `m[cc] = f(m[cc])`. -/
def specStep (d : V) (s : Int → Option V) (op : Int × (V → V)) : Int → Option V :=
  fun k => if k = op.1 then some (op.2 ((s k).getD d)) else s k

/-- Specification of a history. -/
def specRun (d : V) (ops : List (Int × (V → V))) : Int → Option V := ops.foldl (specStep d) (fun _ => none)

/-- Strictly ascending by controller number (hence no duplicates). -/
def Sorted (m : M V) : Prop := m.items.Pairwise (fun a b => a.1 < b.1)

/-! ### Lemmas -/

/-- Looking a key up in the association list from left to right. -/
def assoc (l : List (Int × V)) (k : Int) : Option V := (l.find? (fun d => d.1 == k)).map (·.2)

theorem partitioned_of_sorted (l : List (Int × V)) (h : l.Pairwise (fun a b => a.1 < b.1)) (cc : Int) :
    Partitioned (ltCC cc) l := by
  refine h.imp ?_
  intro a b hab
  simp only [ltCC, decide_eq_true_eq]
  omega

/-- Splitting a sorted list at `cc`. -/
theorem split_sorted (l : List (Int × V)) (h : l.Pairwise (fun a b => a.1 < b.1)) (cc : Int) :
    ∃ a b, l = a ++ b ∧ (l.takeWhile (ltCC cc)).length = a.length ∧ (∀ x ∈ a, x.1 < cc) ∧
      (∀ x ∈ b, cc ≤ x.1) := by
  refine ⟨l.takeWhile (ltCC cc), l.dropWhile (ltCC cc), (List.takeWhile_append_dropWhile).symm, rfl, ?_, ?_⟩
  · intro x hx
    have := List.mem_takeWhile_imp hx
    simpa [ltCC] using this
  · induction l with
    | nil => simp
    | cons y tl ih =>
      intro x hx
      rw [List.dropWhile_cons] at hx
      split at hx
      · exact ih (List.pairwise_cons.mp h).2 x hx
      · rename_i hy
        simp only [ltCC, decide_eq_true_eq] at hy
        rcases List.mem_cons.mp hx with rfl | hx
        · omega
        · have := (List.pairwise_cons.mp h).1 x hx
          omega

theorem assoc_append_left_none (a b : List (Int × V)) (k : Int) (h : ∀ x ∈ a, x.1 ≠ k) :
    assoc (a ++ b) k = assoc b k := by
  unfold assoc
  rw [List.find?_append]
  have : a.find? (fun d => d.1 == k) = none := by
    rw [List.find?_eq_none]; intro x hx; simpa using h x hx
  simp [this]

theorem assoc_none (b : List (Int × V)) (k : Int) (h : ∀ x ∈ b, x.1 ≠ k) : assoc b k = none := by
  unfold assoc
  have : b.find? (fun d => d.1 == k) = none := by
    rw [List.find?_eq_none]; intro x hx; simpa using h x hx
  simp [this]

/-- One update: no undefined behaviour, order kept, content updated as the specification says. -/
theorem update_spec (m : M V) (h : Sorted m) (cc : Int) (f : V → V) :
    ∃ m', update m cc f = some m' ∧ Sorted m' ∧ m'.dflt = m.dflt ∧
      ∀ k, assoc m'.items k = specStep m.dflt (assoc m.items) (cc, f) k := by
  obtain ⟨a, b, hl, hlen, ha, hb⟩ := split_sorted m.items h cc
  have hlb := lowerBound_eq (ltCC cc) m.items (partitioned_of_sorted _ h cc)
  rw [hlen] at hlb
  unfold update
  rw [hlb]
  have hga : m.items[a.length]? = b[0]? := by
    rw [hl, List.getElem?_append_right (by omega)]; simp
  simp only [hga]
  have hs := h
  unfold Sorted at hs
  rw [hl, List.pairwise_append] at hs
  obtain ⟨hsa, hsb, hsab⟩ := hs
  have hins : (m.items.insertIdx a.length (cc, f m.dflt)) = a ++ (cc, f m.dflt) :: b := by
    rw [hl]
    clear hl hlen ha hb hlb hga hsa hsab h
    induction a with
    | nil => simp
    | cons x a ih => simpa using ih
  have insertCase : (∀ x ∈ b, cc < x.1) →
      Sorted ({ m with items := a ++ (cc, f m.dflt) :: b }) ∧
      ∀ k, assoc (a ++ (cc, f m.dflt) :: b) k = specStep m.dflt (assoc m.items) (cc, f) k := by
    intro hb'
    constructor
    · unfold Sorted
      simp only [List.pairwise_append, List.pairwise_cons, List.mem_cons]
      refine ⟨hsa, ⟨fun x hx => hb' x hx, hsb⟩, ?_⟩
      rintro x hx y (rfl | hy)
      · exact ha x hx
      · exact hsab x hx y hy
    · intro k
      unfold specStep
      by_cases hk : k = cc
      · subst hk
        simp only [if_true]
        rw [assoc_append_left_none _ _ _ (fun x hx => by have := ha x hx; omega)]
        have : assoc m.items k = none := by
          apply assoc_none
          intro x hx
          rw [hl] at hx
          rcases List.mem_append.mp hx with hx | hx
          · have := ha x hx; omega
          · have := hb' x hx; omega
        rw [this]
        simp [assoc]
      · simp only [hk, if_false]
        rw [hl]
        unfold assoc
        simp only [List.find?_append, List.find?_cons]
        have : ((cc == k) = false) := by simpa using fun h => hk h.symm
        simp [this]
  match hb0 : b, hsb with
  | [], _ =>
    simp only [List.getElem?_nil]
    refine ⟨_, rfl, ?_⟩
    rw [hins]
    have := insertCase (by simp)
    exact ⟨this.1, rfl, this.2⟩
  | d :: b', hsb =>
    simp only [List.getElem?_cons_zero]
    have hd := hb d (by simp)
    by_cases hdc : d.1 = cc
    · simp only [hdc, bne_self_eq_false, Bool.false_eq_true, if_false]
      refine ⟨_, rfl, ?_, rfl, ?_⟩
      · unfold Sorted
        simp only [hl, List.set_append_right _ _ (le_refl _), Nat.sub_self, List.set_cons_zero]
        simp only [List.pairwise_append, List.pairwise_cons, List.mem_cons]
        refine ⟨hsa, ?_, ?_⟩
        · exact ⟨fun x hx => hdc ▸ (List.pairwise_cons.mp hsb).1 x hx, (List.pairwise_cons.mp hsb).2⟩
        · rintro x hx y (rfl | hy)
          · exact ha x hx
          · exact hsab x hx y (by simp [hy])
      · intro k
        simp only [hl, List.set_append_right _ _ (le_refl _), Nat.sub_self, List.set_cons_zero]
        unfold specStep
        by_cases hk : k = cc
        · subst hk
          simp only [if_true]
          rw [assoc_append_left_none _ _ _ (fun x hx => by have := ha x hx; omega),
            assoc_append_left_none _ _ _ (fun x hx => by have := ha x hx; omega)]
          simp [assoc, hdc]
        · simp only [hk, if_false]
          unfold assoc
          simp only [List.find?_append, List.find?_cons]
          have h1 : ((cc == k) = false) := by simpa using fun h => hk h.symm
          have h2 : ((d.1 == k) = false) := by rw [hdc]; exact h1
          simp [h1, h2]
    · have : (d.1 != cc) = true := by simpa using hdc
      simp only [this, if_true]
      refine ⟨_, rfl, ?_⟩
      rw [hins]
      have hb' : ∀ x ∈ d :: b', cc < x.1 := by
        intro x hx
        rcases List.mem_cons.mp hx with rfl | hx
        · omega
        · have := (List.pairwise_cons.mp hsb).1 x hx; omega
      have := insertCase hb'
      exact ⟨this.1, rfl, this.2⟩

/-- Lookups on a sorted map. -/
theorem lookup_spec (m : M V) (h : Sorted m) (cc : Int) :
    get m cc = some (assoc m.items cc) ∧ getWithDefault m cc = some ((assoc m.items cc).getD m.dflt) ∧
      contains m cc = some (assoc m.items cc).isSome := by
  obtain ⟨a, b, hl, hlen, ha, hb⟩ := split_sorted m.items h cc
  have hlb := lowerBound_eq (ltCC cc) m.items (partitioned_of_sorted _ h cc)
  rw [hlen] at hlb
  have hga : m.items[a.length]? = b[0]? := by
    rw [hl, List.getElem?_append_right (by omega)]; simp
  have hs := h
  unfold Sorted at hs
  rw [hl, List.pairwise_append] at hs
  obtain ⟨-, hsb, -⟩ := hs
  have has : assoc m.items cc = assoc b cc := by
    rw [hl, assoc_append_left_none _ _ _ (fun x hx => by have := ha x hx; omega)]
  unfold get getWithDefault contains
  rw [hlb, has]
  simp only [hga]
  match b, hsb with
  | [], _ => simp [assoc]
  | d :: b', hsb =>
    simp only [List.getElem?_cons_zero]
    have hd := hb d (by simp)
    by_cases hdc : d.1 = cc
    · simp [assoc, hdc]
    · have h1 : (d.1 != cc) = true := by simpa using hdc
      have h2 : assoc (d :: b') cc = none := by
        apply assoc_none
        intro x hx
        rcases List.mem_cons.mp hx with rfl | hx
        · exact hdc
        · have := (List.pairwise_cons.mp hsb).1 x hx; omega
      have h3 : cc < d.1 := by omega
      simp [h1, h2, h3]

theorem run_spec (ops : List (Int × (V → V))) : ∀ (m : M V), Sorted m →
    ∃ m', run m ops = some m' ∧ Sorted m' ∧ m'.dflt = m.dflt ∧
      ∀ k, assoc m'.items k = (ops.foldl (specStep m.dflt) (assoc m.items)) k := by
  induction ops with
  | nil => intro m h; exact ⟨m, rfl, h, rfl, fun _ => rfl⟩
  | cons op ops ih =>
    intro m h
    obtain ⟨m1, h1, h2, h3, h4⟩ := update_spec m h op.1 op.2
    obtain ⟨m2, g1, g2, g3, g4⟩ := ih m1 h2
    refine ⟨m2, by simp [run, h1, g1], g2, by rw [g3, h3], ?_⟩
    intro k
    rw [g4, List.foldl_cons]
    have : assoc m1.items = specStep m.dflt (assoc m.items) op := funext h4
    rw [this, h3]

/-! ### Property -/

/-- For every history of accesses starting from an empty map: nothing undefined happens, the
iteration order is strictly ascending, and lookups agree with a plain function holding the last
value stored for every controller. -/
theorem ccmap_refines_finite_map (d : V) (ops : List (Int × (V → V))) :
    ∃ m, run (empty d) ops = some m ∧ m.items.Pairwise (fun a b => a.1 < b.1) ∧
      ∀ cc, get m cc = some (specRun d ops cc) ∧
        getWithDefault m cc = some ((specRun d ops cc).getD d) ∧
        contains m cc = some (specRun d ops cc).isSome := by
  obtain ⟨m, h1, h2, h3, h4⟩ := run_spec ops (empty d) (by simp [Sorted, empty])
  refine ⟨m, h1, h2, fun cc => ?_⟩
  have e : assoc m.items cc = specRun d ops cc := by
    rw [h4]; rfl
  have := lookup_spec m h2 cc
  rw [e, h3] at this
  exact this

/-- Iteration visits exactly the stored pairs. -/
theorem ccmap_iteration (d : V) (ops : List (Int × (V → V))) (m : M V) (h : run (empty d) ops = some m)
    (cc : Int) (v : V) : (cc, v) ∈ m.items ↔ specRun d ops cc = some v := by
  obtain ⟨m', h1, h2, h3, h4⟩ := run_spec ops (empty d) (by simp [Sorted, empty])
  have : m' = m := by rw [h1] at h; exact Option.some.inj h
  subst this
  have e : assoc m'.items cc = specRun d ops cc := by rw [h4]; rfl
  rw [← e]
  unfold Sorted at h2
  clear h h1 h3 h4 e
  generalize m'.items = l at *
  induction l with
  | nil => simp [assoc]
  | cons x tl ih =>
    have hx := List.pairwise_cons.mp h2
    have ih' := ih hx.2
    refine Iff.trans (Iff.trans List.mem_cons (or_congr Iff.rfl ih')) ?_
    unfold assoc
    rw [List.find?_cons]
    by_cases hk : x.1 = cc
    · have ht : tl.find? (fun d => d.1 == cc) = none := by
        rw [List.find?_eq_none]; intro y hy
        have := hx.1 y hy
        simp; omega
      subst hk
      simp only [beq_self_eq_true, ht, Option.map_none, Option.map_some, Option.some.injEq, reduceCtorEq, or_false]
      constructor
      · intro h; rw [← h]
      · intro h; rw [← h]
    · have : (x.1 == cc) = false := by simpa using hk
      simp only [this]
      constructor
      · rintro (h | h)
        · rw [← h] at hk; simp at hk
        · exact h
      · intro h; exact Or.inr h

example : (run (empty (0 : Int)) [(64, fun _ => 5), (1, fun _ => 7), (64, fun v => v + 1)]).map (·.items)
    = some [(1, 7), (64, 6)] := by
  decide +kernel

end Verif.CCMap
