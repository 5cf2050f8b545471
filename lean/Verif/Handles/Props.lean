import Verif.Handles.Model
import Mathlib.Algebra.BigOperators.Group.Finset.Basic
import Mathlib.Algebra.Order.BigOperators.Group.Finset
import Mathlib.Tactic.SplitIfs

/-! C153: a synthesizer lives as long as a C++ object or a reference of the C interface owns it, however the objects are moved. -/
namespace Verif.Handles

open Function

/-! ### Specification: owners -/

/-- Who owns what: how many synthesizers were made, how many references the users of the C interface hold of each, and the C++ variables that
are alive with what they own. -/
structure Owners where
  made : Nat
  c : Nat → Nat
  vars : Nat → Option (Option Nat)

def noOwners : Owners := ⟨0, fun _ => 0, fun _ => none⟩

/-- Somebody owns `e`. -/
def Owned (s : Owners) (e : Nat) : Prop := 0 < s.c e ∨ ∃ v, s.vars v = some (some e)

/-- The calls that are allowed, and what they do to the owners. -/
inductive Does : Owners → Op → Owners → Prop
  | create (s : Owners) : Does s .create ⟨s.made + 1, update s.c s.made 1, s.vars⟩
  | addRef (s : Owners) (e : Nat) : Owned s e → Does s (.addRef e) ⟨s.made, update s.c e (s.c e + 1), s.vars⟩
  | free (s : Owners) (e : Nat) : 0 < s.c e → Does s (.free e) ⟨s.made, update s.c e (s.c e - 1), s.vars⟩
  | useC (s : Owners) (e : Nat) : Owned s e → Does s (.useC e) s
  | make (s : Owners) (v : Nat) : s.vars v = none → Does s (.make v) ⟨s.made + 1, s.c, update s.vars v (some (some s.made))⟩
  | wrapNull (s : Owners) (v : Nat) : s.vars v = none → Does s (.wrap v none) ⟨s.made, s.c, update s.vars v (some none)⟩
  | wrap (s : Owners) (v e : Nat) : s.vars v = none → Owned s e → Does s (.wrap v (some e)) ⟨s.made, s.c, update s.vars v (some (some e))⟩
  | moveNew (s : Owners) (v x : Nat) (p : Option Nat) : s.vars v = none → s.vars x = some p →
      Does s (.moveNew v x) ⟨s.made, s.c, update (update s.vars v (some p)) x (some none)⟩
  | moveAssign (s : Owners) (v x : Nat) (p q : Option Nat) : v ≠ x → s.vars v = some p → s.vars x = some q →
      Does s (.moveAssign v x) ⟨s.made, s.c, update (update s.vars v (some q)) x (some none)⟩
  | moveSelf (s : Owners) (v : Nat) (p : Option Nat) : s.vars v = some p → Does s (.moveAssign v v) s
  | destroy (s : Owners) (v : Nat) (p : Option Nat) : s.vars v = some p → Does s (.destroy v) ⟨s.made, s.c, update s.vars v none⟩
  | use (s : Owners) (v e : Nat) : s.vars v = some (some e) → Does s (.use v) s

inductive History : List Op → Owners → Prop
  | start : History [] noOwners
  | step {os : List Op} {s t : Owners} (o : Op) : History os s → Does s o t → History (os ++ [o]) t

/-! ### Lemmas -/

/-- How many of the first `n` variables own `e`. -/
def held (vars : Nat → Option (Option Nat)) (n e : Nat) : Nat := ∑ v ∈ Finset.range n, if vars v = some (some e) then 1 else 0

theorem held_update (vars : Nat → Option (Option Nat)) {n v : Nat} (h : v < n) (x : Option (Option Nat)) (e : Nat) :
    held (update vars v x) n e + (if vars v = some (some e) then 1 else 0) = held vars n e + if x = some (some e) then 1 else 0 := by
  have hv : v ∈ Finset.range n := Finset.mem_range.mpr h
  unfold held
  rw [← Finset.add_sum_erase _ _ hv, ← Finset.add_sum_erase (Finset.range n) (fun u => if vars u = some (some e) then 1 else 0) hv]
  have e1 : ∑ u ∈ (Finset.range n).erase v, (if update vars v x u = some (some e) then 1 else 0) =
      ∑ u ∈ (Finset.range n).erase v, if vars u = some (some e) then 1 else 0 := by
    refine Finset.sum_congr rfl fun u hu => ?_
    rw [update_of_ne (Finset.ne_of_mem_erase hu)]
  rw [e1, update_self]
  omega

theorem held_grow {vars : Nat → Option (Option Nat)} {n m : Nat} (h : ∀ v, n ≤ v → vars v = none) (hm : n ≤ m) (e : Nat) :
    held vars m e = held vars n e := by
  unfold held
  symm
  refine Finset.sum_subset (fun x hx => ?_) fun v _ hv => ?_
  · simp only [Finset.mem_range] at hx ⊢; omega
  · rw [h v (by simpa using hv)]; simp

theorem held_pos {vars : Nat → Option (Option Nat)} {n e : Nat} (h : ∀ v, n ≤ v → vars v = none) :
    0 < held vars n e ↔ ∃ v, vars v = some (some e) := by
  unfold held
  rw [Nat.pos_iff_ne_zero, Ne, Finset.sum_eq_zero_iff]
  push Not
  constructor
  · rintro ⟨v, _, hv⟩
    refine ⟨v, ?_⟩
    by_contra hc
    simp [hc] at hv
  · rintro ⟨v, hv⟩
    refine ⟨v, ?_, by simp [hv]⟩
    by_contra hc
    rw [h v (by simpa using hc)] at hv
    simp at hv

/-- The invariant: the counts are the numbers of owners; those deleted are those made that have no owner, each once. -/
structure Inv (s : Owners) (w : World) : Prop where
  made : w.made = s.made
  vars : w.vars = s.vars
  finite : ∃ n, ∀ v, n ≤ v → s.vars v = none
  count : ∀ n, (∀ v, n ≤ v → s.vars v = none) → ∀ e, w.rc e = s.c e + held s.vars n e
  fresh : ∀ e, s.made ≤ e → w.rc e = 0
  nodup : w.deleted.Nodup
  gone : ∀ e, e ∈ w.deleted ↔ e < s.made ∧ w.rc e = 0

theorem Inv.owned {s : Owners} {w : World} (h : Inv s w) (e : Nat) : Owned s e ↔ w.rc e ≠ 0 := by
  obtain ⟨n, hn⟩ := h.finite
  rw [h.count n hn e, Owned, ← held_pos hn]
  omega

/-- A bound on the variables alive that lies above `v` and `x`. -/
theorem Inv.bound {s : Owners} {w : World} (h : Inv s w) (v x : Nat) : ∃ n, v < n ∧ x < n ∧ ∀ u, n ≤ u → s.vars u = none := by
  obtain ⟨n, hn⟩ := h.finite
  exact ⟨n + v + x + 1, by omega, by omega, fun u hu => hn u (by omega)⟩

/-- The counts need be looked at for one bound only. -/
theorem count_all {s : Owners} {w : World} {n : Nat} (hn : ∀ v, n ≤ v → s.vars v = none) (h : ∀ e, w.rc e = s.c e + held s.vars n e) :
    ∀ m, (∀ v, m ≤ v → s.vars v = none) → ∀ e, w.rc e = s.c e + held s.vars m e := by
  intro m hm e
  rw [h e]
  rcases Nat.le_total n m with hl | hl
  · rw [held_grow hn hl]
  · rw [held_grow hm hl]

theorem update_none {vars : Nat → Option (Option Nat)} {n v : Nat} {x : Option (Option Nat)} (hv : v < n) (h : ∀ u, n ≤ u → vars u = none) :
    ∀ u, n ≤ u → update vars v x u = none := by
  intro u hu
  rw [update_of_ne (by omega)]
  exact h u hu

theorem owned_made {s : Owners} {w : World} (h : Inv s w) {e : Nat} (he : w.rc e ≠ 0) : e < s.made := by
  by_contra hc
  exact he (h.fresh e (by omega))

/-- `remember`, together with a change of the owners by one more of `e`. -/
theorem remember_inv {s t : Owners} {w : World} (h : Inv s w) {e n : Nat} (he : w.rc e ≠ 0) (hm : t.made = s.made)
    (hn : ∀ v, n ≤ v → t.vars v = none)
    (hc : ∀ i, t.c i + held t.vars n i = w.rc i + if i = e then 1 else 0) :
    ∃ w', w.remember e = some w' ∧ w'.vars = w.vars ∧ Inv t { w' with vars := t.vars } := by
  refine ⟨{ w with rc := update w.rc e (w.rc e + 1) }, by simp [World.remember, he], rfl, ?_⟩
  have hr : ∀ i, update w.rc e (w.rc e + 1) i = w.rc i + if i = e then 1 else 0 := by
    intro i
    by_cases hi : i = e
    · subst hi; simp
    · simp [hi]
  refine ⟨by rw [hm]; exact h.made, rfl, ⟨n, hn⟩, count_all hn fun i => ?_, fun i hi => ?_, h.nodup, fun i => ?_⟩
  · simp only [hr, hc]
  · have := owned_made h he
    simp only [hr]
    rw [h.fresh i (by omega), if_neg (by omega)]
  · simp only [hr, hm]
    rw [h.gone]
    by_cases hi : i = e
    · subst hi; simp [he]
    · simp [hi]

/-- `forget`, together with a change of the owners by one less of `e`. -/
theorem forget_inv {s t : Owners} {w : World} (h : Inv s w) {e n : Nat} (he : w.rc e ≠ 0) (hm : t.made = s.made)
    (hn : ∀ v, n ≤ v → t.vars v = none)
    (hc : ∀ i, (t.c i + held t.vars n i) + (if i = e then 1 else 0) = w.rc i) :
    ∃ w', w.forget e = some w' ∧ w'.vars = w.vars ∧ Inv t { w' with vars := t.vars } := by
  have hr : ∀ i, update w.rc e (w.rc e - 1) i = t.c i + held t.vars n i := by
    intro i
    have := hc i
    by_cases hi : i = e
    · subst hi; simp at this ⊢; omega
    · simp [hi] at this ⊢; omega
  have hfresh : ∀ i, s.made ≤ i → update w.rc e (w.rc e - 1) i = 0 := by
    intro i hi
    have h1 := owned_made h he
    rw [update_of_ne (by omega)]
    exact h.fresh i hi
  by_cases h1 : w.rc e = 1
  · refine ⟨{ w with rc := update w.rc e 0, deleted := w.deleted ++ [e] }, by simp [World.forget, h1], rfl, ?_⟩
    rw [show (0 : Nat) = w.rc e - 1 by omega]
    refine ⟨by rw [hm]; exact h.made, rfl, ⟨n, hn⟩, count_all hn hr, by rw [hm]; exact hfresh, ?_, fun i => ?_⟩
    · rw [List.nodup_append]
      refine ⟨h.nodup, by simp, fun a ha b hb => ?_⟩
      rw [List.mem_singleton.mp hb]
      rintro rfl
      exact he ((h.gone a).mp ha).2
    · simp only [List.mem_append, List.mem_singleton, h.gone, hm]
      by_cases hi : i = e
      · subst hi
        simp [h1, owned_made h he]
      · simp [hi]
  · refine ⟨{ w with rc := update w.rc e (w.rc e - 1) }, by simp [World.forget, h1, he], rfl, ?_⟩
    refine ⟨by rw [hm]; exact h.made, rfl, ⟨n, hn⟩, count_all hn hr, by rw [hm]; exact hfresh, h.nodup, fun i => ?_⟩
    simp only [h.gone, hm]
    by_cases hi : i = e
    · subst hi
      simp [he]; omega
    · simp [hi]

/-- A change of the variables that leaves the numbers of owners. -/
theorem same_inv {s t : Owners} {w : World} (h : Inv s w) {n : Nat} (hm : t.made = s.made) (hn : ∀ v, n ≤ v → t.vars v = none)
    (hc : ∀ i, t.c i + held t.vars n i = w.rc i) : Inv t { w with vars := t.vars } :=
  ⟨by rw [hm]; exact h.made, rfl, ⟨n, hn⟩, count_all hn fun i => (hc i).symm, by rw [hm]; exact h.fresh, h.nodup, by rw [hm]; exact h.gone⟩

/-- A new synthesizer with one owner. -/
theorem create_inv {s t : Owners} {w : World} (h : Inv s w) {n : Nat} (hm : t.made = s.made + 1) (hn : ∀ v, n ≤ v → t.vars v = none)
    (hc : ∀ i, t.c i + held t.vars n i = w.rc i + if i = s.made then 1 else 0) : Inv t { w.create with vars := t.vars } := by
  have hr : ∀ i, update w.rc w.made 1 i = w.rc i + if i = s.made then 1 else 0 := by
    intro i
    by_cases hi : i = s.made
    · subst hi; simp [h.made, h.fresh s.made (le_refl _)]
    · rw [update_of_ne (by rw [h.made]; exact hi), if_neg hi]; rfl
  refine ⟨by simp [World.create, h.made, hm], rfl, ⟨n, hn⟩, count_all hn fun i => ?_, fun i hi => ?_, h.nodup, fun i => ?_⟩
  · simp only [World.create, hr, hc]
  · simp only [World.create, hr]
    rw [h.fresh i (by omega), if_neg (by omega)]
  · simp only [World.create, hr, h.gone, hm]
    by_cases hi : i = s.made
    · subst hi; simp
    · simp [hi]; omega

theorem step_ok {s t : Owners} {w : World} (h : Inv s w) {o : Op} (hd : Does s o t) : ∃ w', step w o = some w' ∧ Inv t w' := by
  cases hd with
  | create =>
    obtain ⟨n, hn⟩ := h.finite
    refine ⟨_, rfl, ?_⟩
    have := create_inv (t := ⟨s.made + 1, update s.c s.made 1, s.vars⟩) h (n := n) rfl hn (fun i => by
      have := h.count n hn i
      by_cases hi : i = s.made
      · subst hi
        have := h.fresh s.made (le_refl _)
        simp; omega
      · simp [hi]; omega)
    rw [show w.create = { w.create with vars := s.vars } by rw [← h.vars]; rfl]
    exact this
  | addRef e ho =>
    obtain ⟨n, hn⟩ := h.finite
    obtain ⟨w', h1, h2, h3⟩ := remember_inv (t := ⟨s.made, update s.c e (s.c e + 1), s.vars⟩) h ((h.owned e).mp ho) rfl hn (fun i => by
      have := h.count n hn i
      by_cases hi : i = e
      · subst hi; simp; omega
      · simp [hi]; omega)
    refine ⟨w', h1, ?_⟩
    rw [show w' = { w' with vars := s.vars } by rw [← h.vars, ← h2]]
    exact h3
  | free e ho =>
    obtain ⟨n, hn⟩ := h.finite
    obtain ⟨w', h1, h2, h3⟩ := forget_inv (t := ⟨s.made, update s.c e (s.c e - 1), s.vars⟩) h ((h.owned e).mp (Or.inl ho)) rfl hn (fun i => by
      have := h.count n hn i
      by_cases hi : i = e
      · subst hi; simp; omega
      · simp [hi]; omega)
    refine ⟨w', h1, ?_⟩
    rw [show w' = { w' with vars := s.vars } by rw [← h.vars, ← h2]]
    exact h3
  | useC e ho => exact ⟨w, by simp [step, (h.owned e).mp ho], h⟩
  | make v hv =>
    obtain ⟨n, h1, _, hn⟩ := h.bound v v
    have := create_inv (t := ⟨s.made + 1, s.c, update s.vars v (some (some s.made))⟩) h (n := n) rfl (update_none h1 hn) (fun i => by
      have a := h.count n hn i
      have b := held_update s.vars h1 (some (some s.made)) i
      simp only [hv, Option.some.injEq, reduceCtorEq, if_false] at b
      by_cases hi : i = s.made
      · subst hi; simp at b ⊢; omega
      · rw [if_neg (Ne.symm hi)] at b
        simp [hi]; omega)
    refine ⟨_, by simp [step, h.vars, hv]; rfl, ?_⟩
    simpa [World.setVar, h.made, h.vars, World.create] using this
  | wrapNull v hv =>
    obtain ⟨n, h1, _, hn⟩ := h.bound v v
    refine ⟨_, by simp [step, h.vars, hv]; rfl, ?_⟩
    have := same_inv (t := ⟨s.made, s.c, update s.vars v (some none)⟩) h (n := n) rfl (update_none h1 hn) (fun i => by
      have a := h.count n hn i
      have b := held_update s.vars h1 (some none) i
      simp [hv] at b
      simp; omega)
    simpa [World.setVar, h.vars] using this
  | wrap v e hv ho =>
    obtain ⟨n, h1, _, hn⟩ := h.bound v v
    obtain ⟨w', g1, g2, g3⟩ := remember_inv (t := ⟨s.made, s.c, update s.vars v (some (some e))⟩) h ((h.owned e).mp ho) rfl (update_none h1 hn)
      (fun i => by
        have a := h.count n hn i
        have b := held_update s.vars h1 (some (some e)) i
        simp only [hv, Option.some.injEq, reduceCtorEq, if_false] at b
        by_cases hi : i = e
        · subst hi; simp at b ⊢; omega
        · rw [if_neg (Ne.symm hi)] at b
          simp [hi]; omega)
    refine ⟨_, by simp [step, h.vars, hv, g1]; rfl, ?_⟩
    simpa [World.setVar, g2, h.vars] using g3
  | moveNew v x p hv hx =>
    obtain ⟨n, h1, h2, hn⟩ := h.bound v x
    have hne : x ≠ v := by rintro rfl; rw [hv] at hx; simp at hx
    refine ⟨_, by simp [step, h.vars, hv, hx]; rfl, ?_⟩
    have := same_inv (t := ⟨s.made, s.c, update (update s.vars v (some p)) x (some none)⟩) h (n := n) rfl
      (update_none h2 (update_none h1 hn)) (fun i => by
        have a := h.count n hn i
        have b := held_update s.vars h1 (some p) i
        have c := held_update (update s.vars v (some p)) h2 (some none) i
        rw [update_of_ne hne, hx] at c
        simp [hv] at b c
        simp; omega)
    simpa [World.setVar, h.vars] using this
  | moveAssign v x p q hne hv hx =>
    obtain ⟨n, h1, h2, hn⟩ := h.bound v x
    have hb : ∀ i, held (update (update s.vars v (some q)) x (some none)) n i + (if p = some i then 1 else 0) = held s.vars n i := by
      intro i
      have b := held_update s.vars h1 (some q) i
      have c := held_update (update s.vars v (some q)) h2 (some none) i
      rw [update_of_ne (Ne.symm hne), hx] at c
      simp [hv] at b c
      omega
    cases p with
    | none =>
      refine ⟨_, by simp [step, h.vars, hv, hx, hne, World.release]; rfl, ?_⟩
      have := same_inv (t := ⟨s.made, s.c, update (update s.vars v (some q)) x (some none)⟩) h (n := n) rfl
        (update_none h2 (update_none h1 hn)) (fun i => by
          have a := h.count n hn i
          have b := hb i
          simp at b ⊢; omega)
      simpa [World.setVar, h.vars] using this
    | some e =>
      obtain ⟨w', g1, g2, g3⟩ := forget_inv (t := ⟨s.made, s.c, update (update s.vars v (some q)) x (some none)⟩) h (e := e) (n := n)
        ((h.owned e).mp (Or.inr ⟨v, hv⟩)) rfl (update_none h2 (update_none h1 hn)) (fun i => by
          have a := h.count n hn i
          have b := hb i
          by_cases hi : i = e
          · subst hi; simp at b ⊢; omega
          · rw [if_neg (by simpa using Ne.symm hi)] at b
            simp [hi]; omega)
      refine ⟨_, by simp [step, h.vars, hv, hx, hne, World.release, g1]; rfl, ?_⟩
      simpa [World.setVar, g2, h.vars] using g3
  | moveSelf v p hv => exact ⟨w, by simp [step, h.vars, hv], h⟩
  | destroy v p hv =>
    obtain ⟨n, h1, _, hn⟩ := h.bound v v
    have hb : ∀ i, held (update s.vars v none) n i + (if p = some i then 1 else 0) = held s.vars n i := by
      intro i
      have b := held_update s.vars h1 none i
      simp [hv] at b
      omega
    cases p with
    | none =>
      refine ⟨_, by simp [step, h.vars, hv, World.release]; rfl, ?_⟩
      have := same_inv (t := ⟨s.made, s.c, update s.vars v none⟩) h (n := n) rfl (update_none h1 hn) (fun i => by
          have a := h.count n hn i
          have b := hb i
          simp at b ⊢; omega)
      simpa [World.setVar, h.vars] using this
    | some e =>
      obtain ⟨w', g1, g2, g3⟩ := forget_inv (t := ⟨s.made, s.c, update s.vars v none⟩) h (e := e) (n := n)
        ((h.owned e).mp (Or.inr ⟨v, hv⟩)) rfl (update_none h1 hn) (fun i => by
          have a := h.count n hn i
          have b := hb i
          by_cases hi : i = e
          · subst hi; simp at b ⊢; omega
          · rw [if_neg (by simpa using Ne.symm hi)] at b
            simp [hi]; omega)
      refine ⟨_, by simp [step, h.vars, hv, World.release, g1]; rfl, ?_⟩
      simpa [World.setVar, g2, h.vars] using g3
  | use v e hv =>
    have := (h.owned e).mp (Or.inr ⟨v, hv⟩)
    exact ⟨w, by simp [step, h.vars, hv, this], h⟩

theorem run_append : ∀ (os : List Op) (o : Op) (w : World), run w (os ++ [o]) = (run w os).bind (step · o)
  | [], o, w => by simp [run]
  | p :: os, o, w => by
    simp only [List.cons_append, run]
    cases step w p with
    | none => rfl
    | some w1 => exact run_append os o w1

theorem history_ok {os : List Op} {s : Owners} (h : History os s) : ∃ w, run init os = some w ∧ Inv s w := by
  induction h with
  | start =>
    refine ⟨_, rfl, ⟨rfl, rfl, ⟨0, by simp [noOwners]⟩, fun n hn e => ?_, by simp [init], by simp [init], by simp [init, noOwners]⟩⟩
    simp [init, noOwners, held]
  | step o _ hd ih =>
    obtain ⟨w, h1, h2⟩ := ih
    obtain ⟨w', h3, h4⟩ := step_ok h2 hd
    exact ⟨w', by rw [run_append, h1]; exact h3, h4⟩

/-! ### Theorems -/

/-- **C153.** In every history of allowed calls no synthesizer is used that does not exist; after it each variable owns what it should, and the
synthesizers that were deleted are exactly those made that have no owner left, each deleted once. -/
theorem owners_keep_alive (os : List Op) (s : Owners) (h : History os s) :
    ∃ w, run init os = some w ∧ w.vars = s.vars ∧ w.deleted.Nodup ∧ ∀ e, e ∈ w.deleted ↔ e < s.made ∧ ¬ Owned s e := by
  obtain ⟨w, h1, h2⟩ := history_ok h
  refine ⟨w, h1, h2.vars, h2.nodup, fun e => ?_⟩
  rw [h2.gone, h2.owned]
  simp

/-- **C153.** When all variables have ended and all references are given back, every synthesizer that was made is deleted. -/
theorem nothing_left (os : List Op) (s : Owners) (h : History os s) (hc : ∀ e, s.c e = 0) (hv : ∀ v, s.vars v = none) :
    ∃ w, run init os = some w ∧ ∀ e, e ∈ w.deleted ↔ e < s.made := by
  obtain ⟨w, h1, _, _, h2⟩ := owners_keep_alive os s h
  refine ⟨w, h1, fun e => ?_⟩
  rw [h2]
  simp [Owned, hc, hv]

/-! ### Cases -/

/-- A synthesizer of the C interface wrapped by a C++ object, which outlives the reference, is moved to another and overwritten there. -/
def session : List Op := [.create, .wrap 0 (some 0), .free 0, .use 0, .make 1, .moveAssign 1 0, .use 1, .moveNew 2 1, .make 3, .moveAssign 2 3]

theorem session_history : ∃ s, History session s ∧ s.made = 3 ∧ s.vars 0 = some none ∧ s.vars 1 = some none ∧ s.vars 2 = some (some 2) ∧
    s.vars 3 = some none ∧ (∀ v, 4 ≤ v → s.vars v = none) ∧ ∀ e, s.c e = 0 := by
  refine ⟨_, .step (os := [.create, .wrap 0 (some 0), .free 0, .use 0, .make 1, .moveAssign 1 0, .use 1, .moveNew 2 1, .make 3])
    (.moveAssign 2 3) (.step (os := [.create, .wrap 0 (some 0), .free 0, .use 0, .make 1, .moveAssign 1 0, .use 1, .moveNew 2 1]) (.make 3)
    (.step (os := [.create, .wrap 0 (some 0), .free 0, .use 0, .make 1, .moveAssign 1 0, .use 1]) (.moveNew 2 1)
    (.step (os := [.create, .wrap 0 (some 0), .free 0, .use 0, .make 1, .moveAssign 1 0]) (.use 1)
    (.step (os := [.create, .wrap 0 (some 0), .free 0, .use 0, .make 1]) (.moveAssign 1 0)
    (.step (os := [.create, .wrap 0 (some 0), .free 0, .use 0]) (.make 1)
    (.step (os := [.create, .wrap 0 (some 0), .free 0]) (.use 0)
    (.step (os := [.create, .wrap 0 (some 0)]) (.free 0)
    (.step (os := [.create]) (.wrap 0 (some 0))
    (.step (os := []) .create .start (.create _))
    (.wrap _ 0 0 rfl (Or.inl (by simp [noOwners])))) (.free _ 0 (by simp [noOwners]))) (.use _ 0 0 (by simp))) (.make _ 1 (by simp [noOwners])))
    (.moveAssign _ 1 0 (some 1) (some 0) (by decide) (by simp [noOwners]) (by simp))) (.use _ 1 0 (by simp)))
    (.moveNew _ 2 1 (some 0) (by simp [noOwners]) (by simp))) (.make _ 3 (by simp [noOwners])))
    (.moveAssign _ 2 3 (some 0) (some 2) (by decide) (by simp) (by simp [noOwners])), ?_⟩
  refine ⟨rfl, by simp, by simp, by simp, by simp, fun v hv => ?_, fun e => ?_⟩
  · simp only
    rw [update_of_ne (by omega), update_of_ne (by omega), update_of_ne (by omega), update_of_ne (by omega), update_of_ne (by omega),
      update_of_ne (by omega), update_of_ne (by omega), update_of_ne (by omega), update_of_ne (by omega)]
    rfl
  · by_cases he : e = 0
    · subst he; simp [noOwners]
    · simp [he, noOwners]

/-- The synthesizer of the C interface is deleted when its last object is overwritten, the first C++ one when it was overwritten; the third lives. -/
example : (run init session).map (·.deleted) = some [1, 0] := by decide +kernel

example : ∃ w, run init session = some w ∧ 1 ∈ w.deleted ∧ 2 ∉ w.deleted := by
  obtain ⟨s, h, h1, _, _, h2, _, _, _⟩ := session_history
  obtain ⟨w, h3, _, _, h4⟩ := owners_keep_alive _ _ h
  refine ⟨w, h3, ?_, fun hc => ((h4 2).mp hc).2 (Or.inr ⟨2, h2⟩)⟩
  have : (run init session).map (·.deleted) = some [1, 0] := by decide +kernel
  rw [h3, Option.map_some, Option.some.injEq] at this
  rw [this]; simp

/-- The same with the ends of all variables. -/
example : ∃ w, run init (session ++ [.destroy 0] ++ [.destroy 1] ++ [.destroy 2] ++ [.destroy 3]) = some w ∧ ∀ e, e ∈ w.deleted ↔ e < 3 := by
  obtain ⟨s, h, h1, v0, v1, v2, v3, hv, hc⟩ := session_history
  have := nothing_left _ _ (.step (.destroy 3) (.step (.destroy 2) (.step (.destroy 1) (.step (.destroy 0) h (.destroy _ 0 _ v0))
    (.destroy _ 1 none (by simp [v1]))) (.destroy _ 2 (some 2) (by simp [v2]))) (.destroy _ 3 none (by simp [v3]))) hc (fun v => by
      by_cases h3 : v = 3
      · subst h3; simp
      · by_cases h2 : v = 2
        · subst h2; simp
        · by_cases h1 : v = 1
          · subst h1; simp
          · by_cases h0 : v = 0
            · subst h0; simp
            · simp [h0, h1, h2, h3, hv v (by omega)])
  rw [h1] at this
  exact this

end Verif.Handles
