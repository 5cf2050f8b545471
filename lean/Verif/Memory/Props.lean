import Verif.Memory.Lemmas
import Mathlib.Algebra.BigOperators.Ring.Finset

/-! C130: audio buffers behave like values, stay inside their memory, lose none of it, and the memory reported is the memory in use. -/
namespace Verif.Memory

open Function

/-! ### Specification: buffers as values -/

/-- The values of the objects that exist. -/
abbrev Values := Nat → Option (List ℤ)

/-- A list cut or filled with zeros to the length `n`. -/
def fit (l : List ℤ) (n : Nat) : List ℤ := (List.range n).map fun i => l.getD i 0

/-- What an operation does to the values; `none` for a misuse: an object that does not exist or exists already, or an index out of
range. An allocation that fails (`a = none`) changes nothing. -/
def spec (s : Values) : Op → Option Values
  | .make x => if s x = none then some (update s x (some [])) else none
  | .resize x n a => (s x).map fun l => if n ≠ 0 ∧ a = none then s else update s x (some (fit l n))
  | .clear x => (s x).map fun _ => update s x (some [])
  | .destroy x => (s x).map fun _ => update s x none
  | .copyNew x y a => if s x = none then (s y).map fun l => if l ≠ [] ∧ a = none then s else update s x (some l) else none
  | .moveNew x y => if s x = none then (s y).map fun l => update (update s x (some l)) y (some []) else none
  | .copy x y a => if s x = none then none else (s y).map fun l => if l ≠ [] ∧ a = none then s else update s x (some l)
  | .move x y =>
    if s x = none then none else (s y).map fun l => if x = y then s else update (update s x (some l)) y (some [])
  | .set x i v => (s x).bind fun l => if i < l.length then some (update s x (some (l.set i v))) else none

def specRun (s : Values) : List Op → Option Values
  | [] => some s
  | o :: os => (spec s o).bind fun s1 => specRun s1 os

/-- An allocator gives addresses fit for the elements. -/
def Answer (k : Kind) (a : Option Nat) : Prop := ∀ base, a = some base → k.elem ∣ base

/-- Sizes below the largest of `size_t` by more than twice the alignment, addresses fit for the elements. -/
def Fair (k : Kind) : Op → Prop
  | .resize _ n a => n + 2 * (k.align - 1) < word ∧ Answer k a
  | .copyNew _ _ a => Answer k a
  | .copy _ _ a => Answer k a
  | _ => True

/-! ### Each operation -/

theorem fit_length (l : List ℤ) (n : Nat) : (fit l n).length = n := by simp [fit]

theorem fit_take (l : List ℤ) (n : Nat) : fit l n = l.take (min n l.length) ++ List.replicate (n - min n l.length) 0 := by
  apply List.ext_getElem?
  intro j
  unfold fit
  rw [List.getElem?_map]
  by_cases hj : j < n
  · rw [List.getElem?_range hj, Option.map_some]
    by_cases h : j < l.length
    · rw [List.getElem?_append_left (by rw [List.length_take]; omega), List.getElem?_take_of_lt (by omega),
        List.getElem?_eq_getElem h, List.getD_eq_getElem _ _ h]
    · rw [List.getElem?_append_right (by rw [List.length_take]; omega), List.getElem?_replicate_of_lt (by rw [List.length_take]; omega),
        List.getD_eq_default _ _ (by omega)]
  · rw [List.getElem?_eq_none (by simp; omega), List.getElem?_eq_none]
    · rfl
    · simp only [List.length_append, List.length_take, List.length_replicate]; omega

theorem fit_self (l : List ℤ) : fit l l.length = l := by rw [fit_take]; simp

theorem align_pos {k : Kind} (hk : k.Ok) : 0 < k.align := by have := hk.align; omega

theorem padding_lt {k : Kind} (hk : k.Ok) (base : Nat) : padding k base < k.align := Nat.mod_lt _ (align_pos hk)

theorem padding_mod {k : Kind} (hk : k.Ok) (base : Nat) : (base + padding k base) % k.align = 0 := by
  have h := align_pos hk
  unfold padding
  have h1 := Nat.mod_lt base h
  rw [Nat.add_mod, Nat.mod_mod]
  by_cases h2 : base % k.align = 0
  · rw [h2]; simp
  · rw [Nat.mod_eq_of_lt (show k.align - base % k.align < k.align by omega),
      show base % k.align + (k.align - base % k.align) = k.align by omega, Nat.mod_self]

theorem elem_dvd_align (k : Kind) : k.elem ∣ k.align := Dvd.intro_left _ rfl

theorem elem_dvd_padding {k : Kind} (hk : k.Ok) {base : Nat} (h : k.elem ∣ base) : k.elem ∣ padding k base := by
  have h1 : k.align ∣ base + padding k base := Nat.dvd_of_mod_eq_zero (padding_mod hk base)
  exact (Nat.dvd_add_right h).mp (dvd_trans (elem_dvd_align k) h1)

theorem end_eq (k : Kind) (n data : Nat) (hper : 0 < k.per) (he : 0 < k.elem) :
    (if n % k.per ≠ 0 then data + n + k.align - n % k.per else data + n) =
      data + k.per * (n / k.per + (if n % k.per ≠ 0 then k.elem else 0)) := by
  have h1 := Nat.div_add_mod n k.per
  have h3 := Nat.mod_lt n hper
  have h4 : k.per ≤ k.align := Nat.le_mul_of_pos_right _ he
  rw [Nat.mul_add]
  generalize n % k.per = r at h1 h3 ⊢
  generalize k.per * (n / k.per) = pq at h1 ⊢
  split
  · rw [show k.per * k.elem = k.align from rfl]; omega
  · omega

theorem clear_ok {k : Kind} {w : World} {s : Values} (h : Inv k w s) {x : Nat} {l : List ℤ} (hx : s x = some l) :
    ∃ w', w.clear k x = some w' ∧ Inv k w' (update s x (some [])) := by
  have hlive : x ∈ w.live := (h.live x).mpr (by rw [hx]; simp)
  have h1 := free_ok h hx
  refine ⟨{ drop k w x with live := w.live }.put x .empty, ?_, ?_⟩
  · unfold World.clear
    simp only [h1, bind, Option.bind, pure]
  · have := make_inv (drop_inv h hx) (x := x) (update_self ..)
    rw [update_idem] at this
    convert this using 1
    show World.mk _ _ _ _ _ _ = World.mk _ _ _ _ _ _
    congr 1
    exact (Finset.insert_erase hlive).symm

theorem resize_ok {k : Kind} (hk : k.Ok) {w : World} {s : Values} (h : Inv k w s) {x n : Nat} {l : List ℤ} (hx : s x = some l)
    {a : Option Nat} (hn : n + 2 * (k.align - 1) < word) (ha : Answer k a) :
    ∃ w', w.resize k x n a = some (w', !(decide (n ≠ 0 ∧ a = none))) ∧
      Inv k w' (if n ≠ 0 ∧ a = none then s else update s x (some (fit l n))) := by
  by_cases hn0 : n = 0
  · subst hn0
    obtain ⟨w', h1, h2⟩ := clear_ok h hx
    refine ⟨w', ?_, ?_⟩
    · unfold World.resize; rw [if_pos rfl, h1]; simp
    · simpa [fit] using h2
  cases a with
  | none =>
    refine ⟨w, ?_, ?_⟩
    · unfold World.resize; rw [if_neg hn0]; simp [hn0]
    · rw [if_pos ⟨hn0, rfl⟩]; exact h
  | some base =>
    have hlive : x ∈ w.live := (h.live x).mpr (by rw [hx]; simp)
    have hA := align_pos hk
    have hp := padding_lt hk base
    have hdvd := elem_dvd_padding hk (ha base rfl)
    have htemp : (n + 2 * (k.align - 1)) % word = n + 2 * (k.align - 1) := Nat.mod_eq_of_lt hn
    have hcmp : ¬ n + 2 * (k.align - 1) < (n + padding k base) % word := by
      have := Nat.mod_le (n + padding k base) word
      omega
    have hdata : padding k base / k.elem * k.elem = padding k base := Nat.div_mul_cancel hdvd
    have hdle : padding k base / k.elem ≤ padding k base := Nat.div_le_self _ _
    have hhold := h.holds x l hx
    have hfresh : (w.bufs x).block ≠ some w.fresh := by
      rcases hhold with ⟨_, _, _, q⟩ | ⟨_, i, blk, q1, q2, _⟩
      · rw [q]; simp
      · rw [q1]; intro e; cases e
        rw [h.fresh _ le_rfl] at q2; simp at q2
    let temp := n + 2 * (k.align - 1)
    let data := padding k base / k.elem
    let m := min n l.length
    let b : Buf :=
      { larger := temp
        size := n
        block := some w.fresh
        data := data
        alignedEnd := if n % k.per ≠ 0 then data + n + k.align - n % k.per else data + n }
    let cells : List ℤ := (List.replicate temp 0).take data ++ l.take m ++ (List.replicate temp 0).drop (data + (l.take m).length)
    let blk : Block := { base := base, cells := cells }
    have htm : (l.take m).length = m := by rw [List.length_take]; omega
    have hm : m ≤ n := min_le_left _ _
    have hdt : data + n ≤ temp := by show padding k base / k.elem + n ≤ n + 2 * (k.align - 1); omega
    have hcl : cells.length = temp := by
      simp only [cells, List.length_append, List.length_take, List.length_drop, List.length_replicate]; omega
    have hview : (cells.drop data).take n = fit l n := by
      have htd : (List.replicate temp (0 : ℤ)).take data = List.replicate data 0 := by
        rw [List.take_replicate, Nat.min_eq_left (by omega)]
      rw [fit_take]
      show ((List.take data (List.replicate temp 0) ++ l.take m ++ _).drop data).take n = l.take m ++ List.replicate (n - m) 0
      rw [htd, List.append_assoc, List.drop_left' (by simp), List.take_append, htm, List.take_of_length_le (by omega), List.drop_replicate,
        List.take_replicate]
      congr 2
      omega
    have hper : 0 < k.per := by
      rcases Nat.eq_zero_or_pos k.per with q | q
      · exfalso; unfold Kind.align at hA; rw [q] at hA; simp at hA
      · exact q
    have hperle : k.per ≤ k.align := Nat.le_mul_of_pos_right _ hk.elem
    have hB : Holds k { w with heap := update w.heap w.fresh (some blk) } b (fit l n) ∧
        ∀ w' : World, w'.heap w.fresh = some blk → Holds k w' b (fit l n) := by
      have key : ∀ w' : World, w'.heap w.fresh = some blk → Holds k w' b (fit l n) := by
        intro w' hw'
        refine Or.inr ⟨?_, w.fresh, blk, rfl, hw', hcl, ?_, ?_, ?_, ?_, ?_, ?_, ?_⟩
        · intro q; have := fit_length l n; rw [q] at this; exact hn0 this.symm
        · rw [fit_length]
        · rw [fit_length]
        · rw [fit_length]; exact hview
        · rw [fit_length]
          show data + n ≤ if n % k.per ≠ 0 then data + n + k.align - n % k.per else data + n
          split
          · have := Nat.mod_lt n hper; omega
          · exact le_rfl
        · show (if n % k.per ≠ 0 then data + n + k.align - n % k.per else data + n) ≤ temp
          split
          · show padding k base / k.elem + n + k.align - n % k.per ≤ n + 2 * (k.align - 1)
            omega
          · exact hdt
        · show (base + data * k.elem) % k.align = 0
          show (base + padding k base / k.elem * k.elem) % k.align = 0
          rw [hdata]; exact padding_mod hk base
        · show (base + (if n % k.per ≠ 0 then data + n + k.align - n % k.per else data + n) * k.elem) % k.align = 0
          have h2 : (if n % k.per ≠ 0 then data + n + k.align - n % k.per else data + n) =
              data + k.per * (n / k.per + (if n % k.per ≠ 0 then k.elem else 0)) := by
            exact end_eq k n data hper hk.elem
          rw [h2, Nat.add_mul]
          show (base + (padding k base / k.elem * k.elem + _)) % k.align = 0
          rw [hdata, ← Nat.add_assoc]
          apply Nat.mod_eq_zero_of_dvd
          apply Nat.dvd_add (Nat.dvd_of_mod_eq_zero (padding_mod hk base))
          unfold Kind.align
          rw [Nat.mul_right_comm]
          exact Dvd.intro _ rfl
      exact ⟨key _ (update_self ..), key⟩
    have hI := alloc_inv (drop_inv h hx) (x := x) (update_self ..) blk b (fit l n) (by
        show some w.fresh = some (drop k w x).fresh
        rw [show (drop k w x).fresh = w.fresh from uncount_fresh _ _ _])
      (by show temp > 0; show n + 2 * (k.align - 1) > 0; omega)
      (by
        intro w' hw'
        rw [show (drop k w x).fresh = w.fresh from uncount_fresh _ _ _] at hw'
        exact hB.2 w' hw')
    rw [update_idem] at hI
    rw [if_neg (by simp)]
    refine ⟨_, ?_, hI⟩
    unfold World.resize
    rw [if_neg hn0]
    simp only [htemp]
    rw [if_neg hcmp]
    -- reading the old values
    have hread : ∀ w' : World, (∀ i, (w.bufs x).block = some i → w'.heap i = w.heap i) →
        w'.read (w.bufs x).block (w.bufs x).data (min n (w.bufs x).size) = some (l.take m) := by
      intro w' hw'
      rcases hhold with ⟨q0, q1, q2, q3⟩ | ⟨q0, i, bl, q1, q2, q3, q4, q5, q6, q7, q8, _⟩
      · rw [q3, q2, q0]; simp [World.read]
      · rw [q1, q5]
        unfold World.read
        simp only [hw' i q1, q2]
        rw [if_pos (by omega)]
        congr 1
        show List.take m _ = _
        conv_rhs => rw [← q6]
        rw [List.take_take, Nat.min_eq_left (min_le_right _ _)]
    rw [hread _ (by
      intro i hi
      show update w.heap w.fresh _ i = _
      rw [update_of_ne]
      intro e; subst e; exact hfresh hi)]
    simp only [bind, Option.bind]
    unfold World.write
    simp only [update_self]
    rw [if_pos (by rw [List.length_replicate, htm]; show padding k base / k.elem + m ≤ temp; have : data = padding k base / k.elem := rfl; omega)]
    simp only
    unfold World.free
    have hcount : (if (w.bufs x).larger > 0 then w.count else w.count + 1) = (drop k w x).count + 1 := by
      rw [show (drop k w x).count = _ from uncount_count _ _ _]; split <;> omega
    have hbytes : (if (w.bufs x).larger > 0 then w.bytes + ((n + 2 * (k.align - 1) : Nat) : Int) * k.elem - (w.bufs x).larger * k.elem
        else w.bytes + ((n + 2 * (k.align - 1) : Nat) : Int) * k.elem) = (drop k w x).bytes + b.larger * k.elem := by
      rw [show (drop k w x).bytes = _ from uncount_bytes _ _ _]
      show _ = w.bytes - _ + ((n + 2 * (k.align - 1) : Nat) : Int) * k.elem
      split
      · ring
      · rename_i q
        have : (w.bufs x).larger = 0 := by omega
        rw [this]; push_cast; ring
    have hlv : insert x (drop k w x).live = w.live := Finset.insert_erase hlive
    have hfr : (drop k w x).fresh = w.fresh := uncount_fresh _ _ _
    have hbf : (drop k w x).bufs = w.bufs := uncount_bufs _ _ _
    have hhp : (drop k w x).heap = without w.heap (w.bufs x).block := rfl
    simp only [hcount, hbytes, hlv, hfr, hbf, hhp, update_idem]
    cases hj : (w.bufs x).block with
    | none =>
      simp only [pure, World.put, without]
      congr 2
      simp
    | some j =>
      have hjf : j ≠ w.fresh := by intro e; subst e; exact hfresh hj
      have hjn : ∃ bl, w.heap j = some bl := by
        rcases hhold with ⟨_, _, _, q⟩ | ⟨_, i, bl, q1, q2, _⟩
        · rw [q] at hj; simp at hj
        · rw [q1] at hj; cases hj; exact ⟨bl, q2⟩
      obtain ⟨bl, hbl⟩ := hjn
      simp only [update_of_ne hjf, hbl, pure, World.put, without]
      rw [update_comm (Ne.symm hjf)]
      congr 2
      simp

theorem read_of {k : Kind} {w : World} {s : Values} (h : Inv k w s) {x : Nat} {l : List ℤ} (hx : s x = some l) :
    w.view x = some l := view_ok (h.holds x l hx)

theorem size_of {k : Kind} {w : World} {s : Values} (h : Inv k w s) {x : Nat} {l : List ℤ} (hx : s x = some l) :
    (w.bufs x).size = l.length := by
  rcases h.holds x l hx with ⟨q0, _, q2, _⟩ | ⟨_, i, bl, _, _, _, _, q5, _⟩
  · rw [q2, q0]; rfl
  · exact q5

theorem copyCells_ok {k : Kind} {w : World} {s : Values} (h : Inv k w s) {x y : Nat} {l l' : List ℤ} (hx : s x = some l')
    (hy : s y = some l) (hl : l'.length = l.length) :
    ∃ w', w.copyCells x y = some w' ∧ Inv k w' (update s x (some l)) := by
  obtain ⟨w', h1, h2⟩ := write_inv h (i := 0) (vs := l) hx (by omega)
  refine ⟨w', ?_, ?_⟩
  · unfold World.copyCells
    have := read_of h hy
    unfold World.view at this
    simp only [this, bind, Option.bind]
    simpa using h1
  · have : l'.take 0 ++ l ++ l'.drop (0 + l.length) = l := by
      rw [Nat.zero_add, ← hl]; simp
    rwa [this] at h2

/-- Values that fit in memory with their margins. -/
def Small (k : Kind) (s : Values) : Prop := ∀ x l, s x = some l → l.length + 2 * (k.align - 1) < word

theorem small_update {k : Kind} {s : Values} (h : Small k s) (x : Nat) {l : List ℤ} (hl : l.length + 2 * (k.align - 1) < word) :
    Small k (update s x (some l)) := by
  intro y m hy
  by_cases e : y = x
  · subst e; rw [update_self] at hy; cases hy; exact hl
  · rw [update_of_ne e] at hy; exact h y m hy

theorem align_word {k : Kind} (hk : k.Ok) : 2 * (k.align - 1) < word := by
  have := hk.align
  unfold word
  omega

theorem not_none {α : Type} {o : Option α} (h : o ≠ none) : ∃ a, o = some a := Option.ne_none_iff_exists'.mp h

theorem nil_iff (l : List ℤ) (a : Option Nat) : (l.length ≠ 0 ∧ a = none) ↔ (l ≠ [] ∧ a = none) := by
  constructor
  · rintro ⟨q, r⟩; exact ⟨fun c => q (by rw [c]; rfl), r⟩
  · rintro ⟨q, r⟩; exact ⟨fun c => q (List.eq_nil_of_length_eq_zero c), r⟩

/-- Every operation keeps the invariant and has the values of the specification. -/
theorem step_ok {k : Kind} (hk : k.Ok) {w : World} {s s' : Values} (h : Inv k w s) (hsm : Small k s) (o : Op) (ho : Fair k o)
    (hs : spec s o = some s') : ∃ w', step k w o = some w' ∧ Inv k w' s' ∧ Small k s' := by
  have hsz := align_word hk
  cases o with
  | make x =>
    simp only [spec] at hs
    split at hs
    · rename_i hx
      cases hs
      exact ⟨_, rfl, make_inv h hx, small_update hsm x (by simpa using hsz)⟩
    · simp at hs
  | resize x n a =>
    simp only [spec] at hs
    obtain ⟨l, hx, rfl⟩ := Option.map_eq_some_iff.mp hs
    obtain ⟨w', h1, h2⟩ := resize_ok hk h hx ho.1 ho.2
    refine ⟨w', by simp only [step, h1, Option.map_some], h2, ?_⟩
    split
    · exact hsm
    · exact small_update hsm x (by rw [fit_length]; exact ho.1)
  | clear x =>
    simp only [spec] at hs
    obtain ⟨l, hx, rfl⟩ := Option.map_eq_some_iff.mp hs
    obtain ⟨w', h1, h2⟩ := clear_ok h hx
    exact ⟨w', h1, h2, small_update hsm x (by simpa using hsz)⟩
  | destroy x =>
    simp only [spec] at hs
    obtain ⟨l, hx, rfl⟩ := Option.map_eq_some_iff.mp hs
    refine ⟨drop k w x, ?_, drop_inv h hx, ?_⟩
    · simp only [step, free_ok h hx, bind, Option.bind, pure]
      rfl
    · intro y m hy
      by_cases e : y = x
      · subst e; rw [update_self] at hy; simp at hy
      · rw [update_of_ne e] at hy; exact hsm y m hy
  | copyNew x y a =>
    simp only [spec] at hs
    split at hs
    swap
    · simp at hs
    rename_i hx
    obtain ⟨l, hy, rfl⟩ := Option.map_eq_some_iff.mp hs
    have hxy : y ≠ x := by intro e; subst e; rw [hx] at hy; simp at hy
    have h1 := make_inv h hx
    have hsize : ((w.make x).bufs y).size = l.length := by
      show (update w.bufs x .empty y).size = _
      rw [update_of_ne hxy]; exact size_of h hy
    obtain ⟨w1, h2, h3⟩ := resize_ok hk h1 (x := x) (l := []) (n := l.length) (update_self ..) (hsm y l hy) ho
    simp only [step, hsize, h2, bind, Option.bind]
    have hnil := nil_iff l a
    by_cases hf : l.length ≠ 0 ∧ a = none
    · rw [if_pos (hnil.mp hf), decide_eq_true hf]
      exact ⟨w, by simp, h, hsm⟩
    · rw [if_neg hf] at h3
      rw [if_neg (fun q => hf (hnil.mpr q)), decide_eq_false hf]
      obtain ⟨w2, h4, h5⟩ := copyCells_ok h3 (x := x) (y := y) (update_self ..)
        (by rw [update_of_ne hxy, update_of_ne hxy]; exact hy) (fit_length [] l.length)
      rw [update_idem, update_idem] at h5
      exact ⟨w2, by simpa using h4, h5, small_update hsm x (hsm y l hy)⟩
  | moveNew x y =>
    simp only [spec] at hs
    split at hs
    swap
    · simp at hs
    rename_i hx
    obtain ⟨l, hy, rfl⟩ := Option.map_eq_some_iff.mp hs
    refine ⟨_, rfl, take_inv h hx hy, ?_⟩
    exact small_update (small_update hsm x (hsm y l hy)) y (by simpa using hsz)
  | copy x y a =>
    simp only [spec] at hs
    split at hs
    · simp at hs
    rename_i hx
    obtain ⟨l, hy, rfl⟩ := Option.map_eq_some_iff.mp hs
    obtain ⟨lx, hx⟩ := not_none hx
    by_cases e : x = y
    · subst e
      rw [hx] at hy; cases hy
      refine ⟨w, by simp only [step, if_true], ?_, ?_⟩
      · split
        · exact h
        · rw [← hx, update_eq_self]; exact h
      · split
        · exact hsm
        · rw [← hx, update_eq_self]; exact hsm
    · obtain ⟨w1, h1, h2⟩ := resize_ok hk h hx (n := l.length) (hsm y l hy) ho
      simp only [step, if_neg e, size_of h hy, h1, bind, Option.bind]
      have hnil := nil_iff l a
      by_cases hf : l.length ≠ 0 ∧ a = none
      · rw [if_pos hf] at h2
        rw [if_pos (hnil.mp hf)]
        refine ⟨w1, ?_, h2, hsm⟩
        rw [decide_eq_true hf]; simp
      · rw [if_neg hf] at h2
        rw [if_neg (fun q => hf (hnil.mpr q))]
        obtain ⟨w2, h3, h4⟩ := copyCells_ok h2 (x := x) (y := y) (update_self ..) (by rw [update_of_ne (Ne.symm e)]; exact hy)
          (fit_length lx l.length)
        rw [update_idem] at h4
        refine ⟨w2, ?_, h4, small_update hsm x (hsm y l hy)⟩
        rw [← h3, decide_eq_false hf]; simp
  | move x y =>
    simp only [spec] at hs
    split at hs
    · simp at hs
    rename_i hx
    obtain ⟨l, hy, rfl⟩ := Option.map_eq_some_iff.mp hs
    obtain ⟨lx, hx⟩ := not_none hx
    by_cases e : x = y
    · subst e
      refine ⟨w, by simp only [step, if_true], by rw [if_pos rfl]; exact h, by rw [if_pos rfl]; exact hsm⟩
    · rw [if_neg e]
      have hyx : y ≠ x := Ne.symm e
      have hlive : x ∈ w.live := (h.live x).mpr (by rw [hx]; simp)
      have h1 := take_inv (drop_inv h hx) (x := x) (y := y) (l := l) (update_self ..) (by rw [update_of_ne hyx]; exact hy)
      rw [update_idem] at h1
      refine ⟨_, ?_, h1, small_update (small_update hsm x (hsm y l hy)) y (by simpa using hsz)⟩
      have hbf : (drop k w x).bufs = w.bufs := uncount_bufs _ _ _
      simp only [step, if_neg e, uncount_bufs, free_ok h hx, bind, Option.bind, pure, World.put, hbf]
      congr 2
      exact (Finset.insert_erase hlive).symm
  | set x i v =>
    simp only [spec] at hs
    obtain ⟨l, hx, hs⟩ := Option.bind_eq_some_iff.mp hs
    split at hs
    swap
    · simp at hs
    rename_i hi
    cases hs
    obtain ⟨w', h1, h2⟩ := write_inv h (i := i) (vs := [v]) hx (by simp only [List.length_singleton]; omega)
    have e : l.take i ++ [v] ++ l.drop (i + [v].length) = l.set i v := by
      rw [List.set_eq_take_append_cons_drop, if_pos hi]; simp
    rw [e] at h2
    refine ⟨w', h1, h2, small_update hsm x (by rw [List.length_set]; exact hsm x l hx)⟩

theorem init_inv (k : Kind) : Inv k init fun _ => none := by
  constructor
  · intro x; simp [init]
  · intro x l h; simp at h
  · intro x y i h; simp [init] at h
  · intro i blk h; simp [init] at h
  · intro i _; rfl
  · rfl
  · rfl

theorem run_ok {k : Kind} (hk : k.Ok) (ops : List Op) : ∀ {w : World} {s s' : Values}, Inv k w s → Small k s → (∀ o ∈ ops, Fair k o) →
    specRun s ops = some s' → ∃ w', run k w ops = some w' ∧ Inv k w' s' := by
  induction ops with
  | nil => intro w s s' h _ _ hs; cases hs; exact ⟨w, rfl, h⟩
  | cons o os ih =>
    intro w s s' h hsm hf hs
    obtain ⟨s1, h1, h2⟩ := Option.bind_eq_some_iff.mp hs
    obtain ⟨w1, h3, h4, h5⟩ := step_ok hk h hsm o (hf o (List.mem_cons_self ..)) h1
    obtain ⟨w', h6, h7⟩ := ih h4 h5 (fun o' ho' => hf o' (List.mem_cons_of_mem _ ho')) h2
    exact ⟨w', by simp only [run, h3, bind, Option.bind, h6], h7⟩

/-! ### The claims -/

/-- Bytes of memory taken by a buffer of values `l`: none when empty, else its elements and twice the alignment less one. -/
def taken (k : Kind) (l : List ℤ) : Nat := if l = [] then 0 else (l.length + 2 * (k.align - 1)) * k.elem

/-- **C130, values.** Whatever is done with buffers (made, resized, cleared, copied, moved, assigned, written, destroyed), wherever the
allocator places them and whenever it fails, no operation touches memory that is not its own, and each buffer reads as the value it
should have: resizing keeps the elements that fit and adds zeros, a copy equals its source, a move empties its source, and no
operation changes another buffer. -/
theorem buffers_are_values (k : Kind) (hk : k.Ok) (ops : List Op) (hf : ∀ o ∈ ops, Fair k o) (s : Values)
    (hs : specRun (fun _ => none) ops = some s) :
    ∃ w, run k init ops = some w ∧ ∀ x l, s x = some l → w.view x = some l ∧ (w.bufs x).size = l.length := by
  obtain ⟨w, h1, h2⟩ := run_ok hk ops (init_inv k) (by intro x l h; simp at h) hf hs
  exact ⟨w, h1, fun x l hx => ⟨read_of h2 hx, size_of h2 hx⟩⟩

/-- **C130, memory.** After any history: a buffer that is not empty has a block of its own, begins at an aligned address, and its
elements, up to the aligned end that vector code may run to, lie inside its block; every block in use belongs to a buffer; the reported
number of buffers is that of the buffers that are not empty and the reported bytes are the bytes they take. -/
theorem memory_exact (k : Kind) (hk : k.Ok) (ops : List Op) (hf : ∀ o ∈ ops, Fair k o) (s : Values)
    (hs : specRun (fun _ => none) ops = some s) (w : World) (hw : run k init ops = some w) :
    (∀ x l, s x = some l → l ≠ [] → ∃ i blk, (w.bufs x).block = some i ∧ w.heap i = some blk ∧
      blk.cells.length * k.elem = taken k l ∧ (blk.base + (w.bufs x).data * k.elem) % k.align = 0 ∧
      (blk.base + (w.bufs x).alignedEnd * k.elem) % k.align = 0 ∧
      (w.bufs x).data + l.length ≤ (w.bufs x).alignedEnd ∧ (w.bufs x).alignedEnd ≤ blk.cells.length ∧
      ∀ y, s y ≠ none → y ≠ x → (w.bufs y).block ≠ some i) ∧
    (∀ i, w.heap i ≠ none → ∃ x l, s x = some l ∧ (w.bufs x).block = some i) ∧
    ∃ names : Finset Nat, (∀ x, x ∈ names ↔ s x ≠ none) ∧
      w.count = (names.filter fun x => s x ≠ some []).card ∧ w.bytes = ∑ x ∈ names, taken k ((s x).getD []) := by
  obtain ⟨w', h1, h⟩ := run_ok hk ops (init_inv k) (by intro x l h; simp at h) hf hs
  rw [hw] at h1; cases h1
  have hA := align_pos hk
  have hlarger : ∀ x ∈ w.live, ∃ l, s x = some l ∧ (w.bufs x).larger * k.elem = taken k l ∧ ((w.bufs x).larger > 0 ↔ l ≠ []) := by
    intro x hx
    obtain ⟨l, hl⟩ := not_none ((h.live x).mp hx)
    refine ⟨l, hl, ?_⟩
    rcases h.holds x l hl with ⟨q0, q1, _⟩ | ⟨q0, i, bl, _, _, _, q4, _⟩
    · rw [q1]; simp [taken, q0]
    · rw [q4]
      refine ⟨by simp [taken, q0], fun _ => q0, fun _ => ?_⟩
      have := List.length_pos_of_ne_nil q0
      omega
  refine ⟨?_, ?_, w.live, h.live, ?_, ?_⟩
  · intro x l hx hne
    rcases h.holds x l hx with ⟨q0, _⟩ | ⟨_, i, bl, q1, q2, q3, q4, q5, q6, q7, q8, q9, q10⟩
    · exact absurd q0 hne
    · refine ⟨i, bl, q1, q2, by rw [q3, q4]; simp [taken, hne], q9, q10, q7, by omega, ?_⟩
      intro y hy hyx
      exact h.apart x y i ((h.live x).mpr (by rw [hx]; simp)) ((h.live y).mpr hy) (Ne.symm hyx) q1
  · intro i hi
    obtain ⟨blk, hb⟩ := not_none hi
    obtain ⟨x, hx, hxb⟩ := h.owned i blk hb
    obtain ⟨l, hl⟩ := not_none ((h.live x).mp hx)
    exact ⟨x, l, hl, hxb⟩
  · rw [h.count]
    unfold total
    rw [Finset.card_filter]
    push_cast
    refine Finset.sum_congr rfl fun x hx => ?_
    obtain ⟨l, hl, _, h2⟩ := hlarger x hx
    unfold one
    rw [hl]
    by_cases q : l = []
    · subst q; rw [if_neg (by rw [h2]; simp), if_neg (by simp)]
    · rw [if_pos (h2.mpr q), if_pos (by simpa using q)]
  · rw [h.bytes]
    unfold total
    push_cast
    refine Finset.sum_congr rfl fun x hx => ?_
    obtain ⟨l, hl, h2, _⟩ := hlarger x hx
    unfold weight
    rw [hl, Option.getD_some, ← h2]
    push_cast; rfl

/-- **C130, no loss.** When no object is left, all memory has been given back and nothing is reported. -/
theorem nothing_lost (k : Kind) (hk : k.Ok) (ops : List Op) (hf : ∀ o ∈ ops, Fair k o)
    (hs : specRun (fun _ => none) ops = some fun _ => none) (w : World) (hw : run k init ops = some w) :
    (∀ i, w.heap i = none) ∧ w.count = 0 ∧ w.bytes = 0 := by
  obtain ⟨_, h2, names, h3, h4, h5⟩ := memory_exact k hk ops hf _ hs w hw
  have he : names = ∅ := by
    apply Finset.eq_empty_of_forall_notMem
    intro x hx
    exact (h3 x).mp hx rfl
  refine ⟨fun i => ?_, ?_, ?_⟩
  · by_contra hc
    obtain ⟨x, l, hx, _⟩ := h2 i hc
    simp at hx
  · rw [h4, he]; rfl
  · rw [h5, he]; rfl

/-! ### Cases -/

theorem floats_ok : floats.Ok := ⟨by decide, by decide⟩

/-- A buffer is made, grown at an address off the alignment, written, copied, shrunk and moved; one allocation fails. -/
def session : List Op :=
  [.make 0, .resize 0 3 (some 4100), .set 0 2 7, .make 1, .copy 1 0 (some 8192), .resize 0 5 none, .resize 0 2 (some 4108),
    .resize 0 5 (some 5004), .moveNew 2 1, .copyNew 3 2 none, .move 0 2]

example : ∀ o ∈ session, Fair floats o := by
  intro o ho
  simp only [session, List.mem_cons, List.not_mem_nil, or_false] at ho
  rcases ho with rfl | rfl | rfl | rfl | rfl | rfl | rfl | rfl | rfl | rfl | rfl <;>
    simp [Fair, Answer, floats, Kind.align, word]

example : (specRun (fun _ => none) session).map (fun s => [s 0, s 1, s 2, s 3]) = some [some [0, 0, 7], some [], some [], none] := by
  decide +kernel

example : ((run floats init session).map fun w => (w.view 0, w.count, w.bytes, (w.bufs 0).data, (w.bufs 0).alignedEnd)) =
    some (some [0, 0, 7], 1, 132, 0, 16) := by decide +kernel

example : (specRun (fun _ => none) (session ++ [.destroy 0, .destroy 1, .destroy 2])).map (fun s => [s 0, s 1, s 2, s 3]) =
    some [none, none, none, none] := by decide +kernel

/-- C130 is violated for sizes within 30 of the largest: the size with its margins wraps and the buffer has no memory. Such sizes come
from negative block sizes (`sfizz_set_samples_per_block` of -1 resizes the effect buses to 2^64 - 1). -/
theorem resize_wrap_violated :
    (specRun (fun _ => none) [.make 0, .resize 0 (word - 1) (some 4096)]).isSome ∧
    (run floats init [.make 0, .resize 0 (word - 1) (some 4096)]).isNone := by
  constructor
  · rfl
  · decide +kernel

end Verif.Memory
