import Verif.Memory.Model
import Mathlib.Algebra.BigOperators.Group.Finset.Basic
import Mathlib.Data.Nat.ModEq
import Mathlib.Data.List.GetD
import Mathlib.Tactic.Linarith
import Mathlib.Tactic.Ring

/-! Lemmas for `Memory/Props`: the invariant of the heap and the five changes every operation is made of. -/
namespace Verif.Memory

open Function

/-- The buffer `b` holds the values `l` in a block of its own kind. -/
def Holds (k : Kind) (w : World) (b : Buf) (l : List ℤ) : Prop :=
  (l = [] ∧ b.larger = 0 ∧ b.size = 0 ∧ b.block = none) ∨
  (l ≠ [] ∧ ∃ i blk, b.block = some i ∧ w.heap i = some blk ∧ blk.cells.length = b.larger ∧
    b.larger = l.length + 2 * (k.align - 1) ∧ b.size = l.length ∧ (blk.cells.drop b.data).take l.length = l ∧
    b.data + l.length ≤ b.alignedEnd ∧ b.alignedEnd ≤ b.larger ∧
    (blk.base + b.data * k.elem) % k.align = 0 ∧ (blk.base + b.alignedEnd * k.elem) % k.align = 0)

def total (f : Buf → Int) (w : World) : Int := ∑ x ∈ w.live, f (w.bufs x)

def one (b : Buf) : Int := if b.larger > 0 then 1 else 0
def weight (k : Kind) (b : Buf) : Int := b.larger * k.elem

/-- The invariant: `s` gives the values of the objects that exist. -/
structure Inv (k : Kind) (w : World) (s : Nat → Option (List ℤ)) : Prop where
  live : ∀ x, x ∈ w.live ↔ s x ≠ none
  holds : ∀ x l, s x = some l → Holds k w (w.bufs x) l
  apart : ∀ x y i, x ∈ w.live → y ∈ w.live → x ≠ y → (w.bufs x).block = some i → (w.bufs y).block ≠ some i
  owned : ∀ i blk, w.heap i = some blk → ∃ x ∈ w.live, (w.bufs x).block = some i
  fresh : ∀ i, w.fresh ≤ i → w.heap i = none
  count : w.count = total one w
  bytes : w.bytes = total (weight k) w

/-- A change of the heap outside the block of `b` does not matter to it. -/
theorem Holds.congr {k : Kind} {w w' : World} {b : Buf} {l : List ℤ} (h : Holds k w b l)
    (e : ∀ i, b.block = some i → w'.heap i = w.heap i) : Holds k w' b l := by
  rcases h with h | ⟨h0, i, blk, h1, h2, h3⟩
  · exact Or.inl h
  · exact Or.inr ⟨h0, i, blk, h1, by rw [e i h1, h2], h3⟩

theorem holds_empty (k : Kind) (w : World) : Holds k w .empty [] := Or.inl ⟨rfl, rfl, rfl, rfl⟩

/-! ### Taking an object away -/

/-- The heap without a block. -/
def without (heap : Nat → Option Block) : Option Nat → Nat → Option Block
  | none => heap
  | some i => update heap i none

/-- The world without `x` and its block. -/
def drop (k : Kind) (w : World) (x : Nat) : World :=
  { w.uncount k (w.bufs x).larger with
    heap := without w.heap (w.bufs x).block
    live := w.live.erase x }

theorem uncount_heap (w : World) (k : Kind) (n : Nat) : (w.uncount k n).heap = w.heap := by unfold World.uncount; split <;> rfl
theorem uncount_live (w : World) (k : Kind) (n : Nat) : (w.uncount k n).live = w.live := by unfold World.uncount; split <;> rfl
theorem uncount_bufs (w : World) (k : Kind) (n : Nat) : (w.uncount k n).bufs = w.bufs := by unfold World.uncount; split <;> rfl
theorem uncount_fresh (w : World) (k : Kind) (n : Nat) : (w.uncount k n).fresh = w.fresh := by unfold World.uncount; split <;> rfl
theorem uncount_count (w : World) (k : Kind) (n : Nat) : (w.uncount k n).count = w.count - if n > 0 then 1 else 0 := by
  unfold World.uncount; split <;> simp
theorem uncount_bytes (w : World) (k : Kind) (n : Nat) : (w.uncount k n).bytes = w.bytes - n * k.elem := by
  unfold World.uncount; split
  · rfl
  · have : n = 0 := by omega
    subst this; simp

theorem free_ok {k : Kind} {w : World} {s : Nat → Option (List ℤ)} (h : Inv k w s) {x : Nat} {l : List ℤ} (hx : s x = some l) :
    (w.uncount k (w.bufs x).larger).free (w.bufs x).block = some { drop k w x with live := w.live } := by
  unfold World.free drop
  rcases h.holds x l hx with ⟨_, h1, h2, h3⟩ | ⟨_, i, blk, h1, h2, _⟩
  · rw [h3, h1]; rfl
  · rw [h1]
    simp only [uncount_heap, h2]
    congr 1
    unfold World.uncount
    split <;> rfl

theorem drop_inv {k : Kind} {w : World} {s : Nat → Option (List ℤ)} (h : Inv k w s) {x : Nat} {l : List ℤ} (hx : s x = some l) :
    Inv k (drop k w x) (update s x none) := by
  have hlive : x ∈ w.live := (h.live x).mpr (by rw [hx]; simp)
  have hb : (drop k w x).bufs = w.bufs := uncount_bufs _ _ _
  have heap : ∀ i, (w.bufs x).block ≠ some i → (drop k w x).heap i = w.heap i := by
    intro i hi
    show without w.heap (w.bufs x).block i = _
    cases hj : (w.bufs x).block with
    | none => rfl
    | some j =>
      show update w.heap j none i = _
      rw [update_of_ne]
      intro e; subst e; exact hi hj
  have hsub : ∀ i blk, (drop k w x).heap i = some blk → w.heap i = some blk ∧ (w.bufs x).block ≠ some i := by
    intro i blk hi
    change without w.heap (w.bufs x).block i = _ at hi
    cases hj : (w.bufs x).block with
    | none => rw [hj] at hi; exact ⟨hi, by simp⟩
    | some j =>
      rw [hj] at hi
      change update w.heap j none i = _ at hi
      by_cases e : i = j
      · subst e; rw [update_self] at hi; simp at hi
      · rw [update_of_ne e] at hi
        refine ⟨hi, ?_⟩
        intro e'; exact e (Option.some.inj e').symm
  constructor
  · intro y
    show y ∈ w.live.erase x ↔ _
    by_cases e : y = x
    · subst e; simp
    · rw [update_of_ne e, Finset.mem_erase]
      exact ⟨fun q => (h.live y).mp q.2, fun q => ⟨e, (h.live y).mpr q⟩⟩
  · intro y m hy
    by_cases e : y = x
    · subst e; rw [update_self] at hy; simp at hy
    · rw [update_of_ne e] at hy
      rw [hb]
      refine (h.holds y m hy).congr fun i hi => heap i ?_
      exact fun q => h.apart x y i hlive ((h.live y).mpr (by rw [hy]; simp)) (Ne.symm e) q hi
  · intro y z i hy hz
    rw [hb]
    exact h.apart y z i (Finset.mem_of_mem_erase hy) (Finset.mem_of_mem_erase hz)
  · intro i blk hi
    obtain ⟨h1, h2⟩ := hsub i blk hi
    obtain ⟨y, hy, hyb⟩ := h.owned i blk h1
    refine ⟨y, ?_, by rw [hb]; exact hyb⟩
    show y ∈ w.live.erase x
    refine Finset.mem_erase.mpr ⟨?_, hy⟩
    intro e; subst e; exact h2 hyb
  · intro i hi
    have hf : (drop k w x).fresh = w.fresh := uncount_fresh _ _ _
    rw [hf] at hi
    by_contra hc
    obtain ⟨blk, hblk⟩ := Option.ne_none_iff_exists'.mp hc
    have := (hsub i blk hblk).1
    rw [h.fresh i hi] at this
    simp at this
  · have hc : (drop k w x).count = w.count - one (w.bufs x) := uncount_count _ _ _
    rw [hc, h.count]
    have : total one (drop k w x) = ∑ y ∈ w.live.erase x, one (w.bufs y) := by
      unfold total; rw [hb]; rfl
    rw [this]
    unfold total
    rw [← Finset.add_sum_erase _ _ hlive]; ring
  · have hc : (drop k w x).bytes = w.bytes - weight k (w.bufs x) := uncount_bytes _ _ _
    rw [hc, h.bytes]
    have : total (weight k) (drop k w x) = ∑ y ∈ w.live.erase x, weight k (w.bufs y) := by
      unfold total; rw [hb]; rfl
    rw [this]
    unfold total
    rw [← Finset.add_sum_erase _ _ hlive]; ring

/-! ### A new object -/

theorem total_insert (f : Buf → Int) (w : World) (x : Nat) (b : Buf) (hx : x ∉ w.live) (w' : World)
    (h1 : w'.live = insert x w.live) (h2 : w'.bufs = update w.bufs x b) : total f w' = total f w + f b := by
  unfold total
  rw [h1, h2, Finset.sum_insert hx, update_self, add_comm]
  congr 1
  refine Finset.sum_congr rfl fun y hy => ?_
  rw [update_of_ne]
  intro e; subst e; exact hx hy

theorem make_inv {k : Kind} {w : World} {s : Nat → Option (List ℤ)} (h : Inv k w s) {x : Nat} (hx : s x = none) :
    Inv k (w.make x) (update s x (some [])) := by
  have hnl : x ∉ w.live := fun q => (h.live x).mp q hx
  have hne : ∀ y ∈ w.live, y ≠ x := fun y hy e => hnl (e ▸ hy)
  constructor
  · intro y
    show y ∈ insert x w.live ↔ _
    by_cases e : y = x
    · subst e; simp
    · rw [update_of_ne e, Finset.mem_insert, ← h.live y]
      exact ⟨fun q => q.resolve_left e, Or.inr⟩
  · intro y m hy
    by_cases e : y = x
    · subst e
      rw [update_self] at hy
      cases hy
      show Holds k _ (update w.bufs y .empty y) []
      rw [update_self]; exact holds_empty k _
    · rw [update_of_ne e] at hy
      show Holds k _ (update w.bufs x .empty y) m
      rw [update_of_ne e]
      exact (h.holds y m hy).congr fun i _ => rfl
  · intro y z i hy hz hyz
    show (update w.bufs x .empty y).block = some i → (update w.bufs x .empty z).block ≠ some i
    by_cases ey : y = x
    · subst ey; rw [update_self]; intro q; simp [Buf.empty] at q
    · by_cases ez : z = x
      · subst ez; rw [update_self]; intro _ q; simp [Buf.empty] at q
      · rw [update_of_ne ey, update_of_ne ez]
        exact h.apart y z i ((Finset.mem_insert.mp hy).resolve_left ey) ((Finset.mem_insert.mp hz).resolve_left ez) hyz
  · intro i blk hi
    obtain ⟨y, hy, hyb⟩ := h.owned i blk hi
    refine ⟨y, Finset.mem_insert_of_mem hy, ?_⟩
    show (update w.bufs x .empty y).block = some i
    rw [update_of_ne (hne y hy)]; exact hyb
  · exact h.fresh
  · rw [total_insert one w x .empty hnl _ rfl rfl]
    show w.count = _
    rw [h.count]; simp [one, Buf.empty]
  · rw [total_insert (weight k) w x .empty hnl _ rfl rfl]
    show w.bytes = _
    rw [h.bytes]; simp [weight, Buf.empty]

/-- A new object with a new block. -/
theorem alloc_inv {k : Kind} {w : World} {s : Nat → Option (List ℤ)} (h : Inv k w s) {x : Nat} (hx : s x = none) (blk : Block) (b : Buf)
    (l : List ℤ) (hb : b.block = some w.fresh) (hl : b.larger > 0)
    (hold : ∀ w' : World, w'.heap w.fresh = some blk → Holds k w' b l) :
    Inv k { w with
      heap := update w.heap w.fresh (some blk)
      fresh := w.fresh + 1
      count := w.count + 1
      bytes := w.bytes + b.larger * k.elem
      live := insert x w.live
      bufs := update w.bufs x b } (update s x (some l)) := by
  have hnl : x ∉ w.live := fun q => (h.live x).mp q hx
  have hne : ∀ y ∈ w.live, y ≠ x := fun y hy e => hnl (e ▸ hy)
  have hold' : ∀ y ∈ w.live, (w.bufs y).block ≠ some w.fresh := by
    intro y hy q
    obtain ⟨m, hm⟩ := Option.ne_none_iff_exists'.mp ((h.live y).mp hy)
    rcases h.holds y m hm with ⟨_, _, _, h3⟩ | ⟨_, i, blk', h1, h2, _⟩
    · rw [h3] at q; simp at q
    · rw [h1] at q
      cases q
      rw [h.fresh _ le_rfl] at h2
      simp at h2
  constructor
  · intro y
    show y ∈ insert x w.live ↔ _
    by_cases e : y = x
    · subst e; simp
    · rw [update_of_ne e, Finset.mem_insert, ← h.live y]
      exact ⟨fun q => q.resolve_left e, Or.inr⟩
  · intro y m hy
    by_cases e : y = x
    · subst e
      rw [update_self] at hy
      cases hy
      show Holds k _ (update w.bufs y b y) l
      rw [update_self]; exact hold _ (update_self ..)
    · rw [update_of_ne e] at hy
      show Holds k _ (update w.bufs x b y) m
      rw [update_of_ne e]
      refine (h.holds y m hy).congr fun i hi => ?_
      show update w.heap w.fresh (some blk) i = _
      rw [update_of_ne]
      intro q; subst q
      exact hold' y ((h.live y).mpr (by rw [hy]; simp)) hi
  · intro y z i hy hz hyz
    show (update w.bufs x b y).block = some i → (update w.bufs x b z).block ≠ some i
    by_cases ey : y = x
    · subst ey
      rw [update_self, update_of_ne (Ne.symm hyz), hb]
      intro q; cases q
      exact hold' z ((Finset.mem_insert.mp hz).resolve_left (Ne.symm hyz))
    · have hy' := (Finset.mem_insert.mp hy).resolve_left ey
      by_cases ez : z = x
      · subst ez; rw [update_self, update_of_ne ey, hb]
        intro q q'; cases q'
        exact hold' y hy' q
      · rw [update_of_ne ey, update_of_ne ez]
        exact h.apart y z i hy' ((Finset.mem_insert.mp hz).resolve_left ez) hyz
  · intro i blk' hi
    by_cases e : i = w.fresh
    · subst e
      refine ⟨x, Finset.mem_insert_self _ _, ?_⟩
      show (update w.bufs x b x).block = _
      rw [update_self]; exact hb
    · have hi' : w.heap i = some blk' := by
        rw [← hi]; show _ = update w.heap w.fresh (some blk) i
        rw [update_of_ne e]
      obtain ⟨y, hy, hyb⟩ := h.owned i blk' hi'
      refine ⟨y, Finset.mem_insert_of_mem hy, ?_⟩
      show (update w.bufs x b y).block = some i
      rw [update_of_ne (hne y hy)]; exact hyb
  · intro i hi
    show update w.heap w.fresh (some blk) i = none
    have hi' : w.fresh + 1 ≤ i := hi
    rw [update_of_ne (by omega)]
    exact h.fresh i (by omega)
  · rw [total_insert one w x b hnl _ rfl rfl]
    show w.count + 1 = _
    rw [h.count]; simp [one, hl]
  · rw [total_insert (weight k) w x b hnl _ rfl rfl]
    show w.bytes + _ = _
    rw [h.bytes]; rfl

/-- A new object takes the block of another. -/
theorem take_inv {k : Kind} {w : World} {s : Nat → Option (List ℤ)} (h : Inv k w s) {x y : Nat} {l : List ℤ} (hx : s x = none)
    (hy : s y = some l) :
    Inv k { (w.put x (w.bufs y)).put y .empty with live := insert x w.live } (update (update s x (some l)) y (some [])) := by
  have hnl : x ∉ w.live := fun q => (h.live x).mp q hx
  have hyl : y ∈ w.live := (h.live y).mpr (by rw [hy]; simp)
  have hxy : x ≠ y := fun e => hnl (e ▸ hyl)
  have hne : ∀ z ∈ w.live, z ≠ x := fun z hz e => hnl (e ▸ hz)
  have bx : update (update w.bufs x (w.bufs y)) y .empty x = w.bufs y := by rw [update_of_ne hxy, update_self]
  have by' : update (update w.bufs x (w.bufs y)) y Buf.empty y = Buf.empty := update_self ..
  have bz : ∀ z, z ≠ x → z ≠ y → update (update w.bufs x (w.bufs y)) y Buf.empty z = w.bufs z := by
    intro z h1 h2; rw [update_of_ne h2, update_of_ne h1]
  constructor
  · intro z
    show z ∈ insert x w.live ↔ _
    by_cases e : z = x
    · subst e; rw [update_of_ne hxy]; simp
    · by_cases e2 : z = y
      · subst e2; simp [hyl]
      · rw [update_of_ne e2, update_of_ne e, Finset.mem_insert, ← h.live z]
        exact ⟨fun q => q.resolve_left e, Or.inr⟩
  · intro z m hz
    show Holds k _ (update (update w.bufs x (w.bufs y)) y .empty z) m
    by_cases e : z = x
    · subst e
      rw [update_of_ne hxy, update_self] at hz
      cases hz
      rw [bx]
      exact (h.holds y l hy).congr fun _ _ => rfl
    · by_cases e2 : z = y
      · subst e2
        rw [update_self] at hz
        cases hz
        rw [by']; exact holds_empty k _
      · rw [update_of_ne e2, update_of_ne e] at hz
        rw [bz z e e2]
        exact (h.holds z m hz).congr fun _ _ => rfl
  · intro z u i hz hu hzu
    show (update (update w.bufs x (w.bufs y)) y .empty z).block = some i →
      (update (update w.bufs x (w.bufs y)) y .empty u).block ≠ some i
    have hz' := Finset.mem_insert.mp hz
    have hu' := Finset.mem_insert.mp hu
    by_cases z1 : z = y
    · subst z1; rw [by']; intro q; simp [Buf.empty] at q
    by_cases u1 : u = y
    · subst u1; rw [by']; intro _ q; simp [Buf.empty] at q
    by_cases z2 : z = x
    · subst z2
      rw [bx, bz u (Ne.symm hzu) u1]
      exact h.apart y u i hyl (hu'.resolve_left (Ne.symm hzu)) (Ne.symm u1)
    by_cases u2 : u = x
    · subst u2
      rw [bx, bz z z2 z1]
      exact h.apart z y i (hz'.resolve_left z2) hyl z1
    rw [bz z z2 z1, bz u u2 u1]
    exact h.apart z u i (hz'.resolve_left z2) (hu'.resolve_left u2) hzu
  · intro i blk hi
    obtain ⟨z, hz, hzb⟩ := h.owned i blk hi
    by_cases e : z = y
    · subst e
      refine ⟨x, Finset.mem_insert_self _ _, ?_⟩
      show (update (update w.bufs x (w.bufs z)) z .empty x).block = _
      rw [bx]; exact hzb
    · refine ⟨z, Finset.mem_insert_of_mem hz, ?_⟩
      show (update (update w.bufs x (w.bufs y)) y .empty z).block = _
      rw [bz z (hne z hz) e]; exact hzb
  · exact h.fresh
  · have key : ∀ f : Buf → Int, f .empty = 0 →
        total f { (w.put x (w.bufs y)).put y .empty with live := insert x w.live } = total f w := by
      intro f hf
      unfold total
      show ∑ z ∈ insert x w.live, f (update (update w.bufs x (w.bufs y)) y .empty z) = _
      rw [Finset.sum_insert hnl, bx, ← Finset.add_sum_erase w.live _ hyl, by', hf, zero_add, ← Finset.add_sum_erase w.live _ hyl]
      congr 1
      refine Finset.sum_congr rfl fun z hz => ?_
      rw [Finset.mem_erase] at hz
      rw [bz z (hne z hz.2) hz.1]
    rw [key one (by simp [one, Buf.empty])]
    exact h.count
  · have key : ∀ f : Buf → Int, f .empty = 0 →
        total f { (w.put x (w.bufs y)).put y .empty with live := insert x w.live } = total f w := by
      intro f hf
      unfold total
      show ∑ z ∈ insert x w.live, f (update (update w.bufs x (w.bufs y)) y .empty z) = _
      rw [Finset.sum_insert hnl, bx, ← Finset.add_sum_erase w.live _ hyl, by', hf, zero_add, ← Finset.add_sum_erase w.live _ hyl]
      congr 1
      refine Finset.sum_congr rfl fun z hz => ?_
      rw [Finset.mem_erase] at hz
      rw [bz z (hne z hz.2) hz.1]
    rw [key (weight k) (by simp [weight, Buf.empty])]
    exact h.bytes

/-! ### Reading and writing -/

theorem view_ok {k : Kind} {w : World} {b : Buf} {l : List ℤ} (h : Holds k w b l) : w.read b.block b.data b.size = some l := by
  rcases h with ⟨h0, h1, h2, h3⟩ | ⟨h0, i, blk, h1, h2, h3, h4, h5, h6, h7, h8, _⟩
  · rw [h3, h2, h0]; rfl
  · rw [h1, h5]
    unfold World.read
    simp only [h2]
    rw [if_pos (by omega), h6]

theorem splice_view (cells l vs : List ℤ) (d i : Nat) (hl : (cells.drop d).take l.length = l) (hd : d + l.length ≤ cells.length)
    (hi : i + vs.length ≤ l.length) :
    ((cells.take (d + i) ++ vs ++ cells.drop (d + i + vs.length)).drop d).take l.length = l.take i ++ vs ++ l.drop (i + vs.length) := by
  apply List.ext_getElem?
  intro j
  have hlj : ∀ j, j < l.length → l[j]? = cells[d + j]? := by
    intro j hj
    conv_lhs => rw [← hl]
    rw [List.getElem?_take_of_lt hj, List.getElem?_drop]
  have ht : (cells.take (d + i)).length = d + i := by rw [List.length_take]; omega
  have ht2 : (l.take i).length = i := by rw [List.length_take]; omega
  by_cases hj : j < l.length
  · rw [List.getElem?_take_of_lt hj, List.getElem?_drop]
    by_cases h1 : j < i
    · rw [List.append_assoc, List.append_assoc, List.getElem?_append_left (by omega), List.getElem?_append_left (by omega),
        List.getElem?_take_of_lt (by omega), List.getElem?_take_of_lt h1, hlj j hj]
    · rw [List.append_assoc, List.append_assoc, List.getElem?_append_right (l₁ := cells.take (d + i)) (by omega),
        List.getElem?_append_right (l₁ := l.take i) (by omega), ht, ht2, show d + j - (d + i) = j - i by omega]
      by_cases h2 : j - i < vs.length
      · rw [List.getElem?_append_left h2, List.getElem?_append_left h2]
      · rw [List.getElem?_append_right (l₁ := vs) (l₂ := cells.drop _) (by omega),
          List.getElem?_append_right (l₁ := vs) (l₂ := l.drop _) (by omega), List.getElem?_drop, List.getElem?_drop, hlj _ (by omega)]
        congr 1
        omega
  · have e1 : (((cells.take (d + i) ++ vs ++ cells.drop (d + i + vs.length)).drop d).take l.length).length ≤ j := by
      rw [List.length_take]; omega
    rw [List.getElem?_eq_none e1, List.getElem?_eq_none (by
      simp only [List.length_append, List.length_take, List.length_drop]
      omega)]

theorem write_inv {k : Kind} {w : World} {s : Nat → Option (List ℤ)} (h : Inv k w s) {x i : Nat} {l vs : List ℤ} (hx : s x = some l)
    (hi : i + vs.length ≤ l.length) :
    ∃ w', w.write (w.bufs x).block ((w.bufs x).data + i) vs = some w' ∧
      Inv k w' (update s x (some (l.take i ++ vs ++ l.drop (i + vs.length)))) := by
  have hlive : x ∈ w.live := (h.live x).mpr (by rw [hx]; simp)
  rcases h.holds x l hx with ⟨h0, h1, h2, h3⟩ | ⟨h0, b, blk, h1, h2, h3, h4, h5, h6, h7, h8, h9, h10⟩
  · subst h0
    have hv : vs = [] := List.eq_nil_of_length_eq_zero (by simp only [List.length_nil] at hi; omega)
    subst hv
    refine ⟨w, by rw [h3]; rfl, ?_⟩
    have : update s x (some ((List.take i [] : List ℤ) ++ [] ++ List.drop (i + ([] : List ℤ).length) [])) = s := by
      simp only [List.take_nil, List.drop_nil, List.append_nil]
      rw [← hx, update_eq_self]
    rw [this]; exact h
  · let cs := blk.cells.take ((w.bufs x).data + i) ++ vs ++ blk.cells.drop ((w.bufs x).data + i + vs.length)
    refine ⟨{ w with heap := update w.heap b (some { blk with cells := cs }) }, ?_, ?_⟩
    · rw [h1]; unfold World.write; simp only [h2]
      rw [if_pos (by omega)]
    · have hlen : (l.take i ++ vs ++ l.drop (i + vs.length)).length = l.length := by
        simp only [List.length_append, List.length_take, List.length_drop]; omega
      have hlen2 : (blk.cells.take ((w.bufs x).data + i) ++ vs ++ blk.cells.drop ((w.bufs x).data + i + vs.length)).length =
          blk.cells.length := by
        simp only [List.length_append, List.length_take, List.length_drop]; omega
      constructor
      · intro y
        rw [show (y ∈ _) = (y ∈ w.live) from rfl, h.live y]
        by_cases e : y = x
        · subst e; rw [update_self, hx]; simp
        · rw [update_of_ne e]
      · intro y m hy
        by_cases e : y = x
        · subst e
          rw [update_self] at hy
          cases hy
          refine Or.inr ⟨?_, b, _, h1, update_self .., ?_, ?_, ?_, ?_, ?_, h8, h9, h10⟩
          · intro q
            rw [q] at hlen
            exact h0 (List.eq_nil_of_length_eq_zero hlen.symm)
          · simp only; rw [hlen2, h3]
          · rw [hlen]; exact h4
          · rw [hlen]; exact h5
          · rw [hlen]; exact splice_view blk.cells l vs (w.bufs y).data i h6 (by omega) hi
          · rw [hlen]; exact h7
        · rw [update_of_ne e] at hy
          refine (h.holds y m hy).congr fun j hj => ?_
          show update w.heap b _ j = _
          rw [update_of_ne]
          intro q; subst q
          exact h.apart x y j hlive ((h.live y).mpr (by rw [hy]; simp)) (Ne.symm e) h1 hj
      · exact h.apart
      · intro j blk' hj
        by_cases e : j = b
        · subst e; exact ⟨x, hlive, h1⟩
        · refine h.owned j blk' ?_
          rw [← hj]; show _ = update w.heap b _ j
          rw [update_of_ne e]
      · intro j hj
        show update w.heap b _ j = none
        have hj' : w.fresh ≤ j := hj
        rw [update_of_ne]
        · exact h.fresh j hj
        · intro q; subst q
          rw [h.fresh j hj'] at h2; simp at h2
      · exact h.count
      · exact h.bytes

end Verif.Memory
