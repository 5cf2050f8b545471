import Verif.Edit.Model
import Mathlib.Tactic.Ring
import Mathlib.Tactic.NormNum
import Mathlib.Data.List.Induction

/-!
# What an edited region does

Specification: an edited region should do what it would do if the edited instrument were loaded.
For key and controller tests this is `Plays` below, stated from the region and the controller values
alone; for rendering it is that every block is safe and that every voice is heard.
-/

namespace Verif.Edit

/-- The key and controller conditions of a region, as the file format states them. -/
def Plays (r : Reg) (values : Nat → ℚ) (k : Nat) : Prop :=
  (k < 128 ∧ r.keys.1 ≤ k ∧ k ≤ r.keys.2) ∧
    ∀ cc, cc < 512 → ∀ c, r.conds cc = some c → c.1 ≤ values cc ∧ values cc ≤ c.2

/-! ## Lemmas about histories -/

theorem run_snoc (e : Engine) (ops : List Op) (op : Op) :
    run e (ops ++ [op]) = step (run e ops) op := by simp [run]

theorem step_lists (e : Engine) (op : Op) :
    (step e op).noteLists = e.noteLists ∧ (step e op).ccLists = e.ccLists ∧
      (step e op).numOutputs = e.numOutputs ∧ (step e op).layers.length = e.layers.length ∧
      (step e op).buses.length = e.buses.length := by
  cases op <;> simp [step]

theorem run_lists (e : Engine) (ops : List Op) :
    (run e ops).noteLists = e.noteLists ∧ (run e ops).ccLists = e.ccLists ∧
      (run e ops).numOutputs = e.numOutputs ∧ (run e ops).layers.length = e.layers.length ∧
      (run e ops).buses.length = e.buses.length := by
  induction ops using List.reverseRecOn with
  | nil => simp [run]
  | append_singleton ops op ih =>
    rw [run_snoc]
    have h := step_lists (run e ops) op
    exact ⟨h.1.trans ih.1, h.2.1.trans ih.2.1, h.2.2.1.trans ih.2.2.1, h.2.2.2.1.trans ih.2.2.2.1,
      h.2.2.2.2.trans ih.2.2.2.2⟩

theorem mem_keyList (regs : List Reg) (i k : Nat) :
    i ∈ keyList regs k ↔ ∃ r, regs[i]? = some r ∧ k < 128 ∧ r.keys.1 ≤ k ∧ k ≤ r.keys.2 := by
  simp only [keyList, List.mem_filter, List.mem_range]
  constructor
  · rintro ⟨hi, h⟩
    rw [List.getElem?_eq_getElem hi] at h
    refine ⟨regs[i], List.getElem?_eq_getElem hi, ?_⟩
    simpa [hasKey] using h
  · rintro ⟨r, hr, h⟩
    obtain ⟨hi, -⟩ := List.getElem?_eq_some_iff.mp hr
    refine ⟨hi, ?_⟩
    rw [hr]
    simpa [hasKey] using h

theorem mem_ccList (regs : List Reg) (i cc : Nat) :
    i ∈ ccList regs cc ↔ ∃ r, regs[i]? = some r ∧ cc < 512 ∧ listens r cc = true := by
  simp only [ccList, List.mem_filter, List.mem_range]
  constructor
  · rintro ⟨hi, h⟩
    rw [List.getElem?_eq_getElem hi] at h
    refine ⟨regs[i], List.getElem?_eq_getElem hi, ?_⟩
    simpa using h
  · rintro ⟨r, hr, h⟩
    obtain ⟨hi, -⟩ := List.getElem?_eq_some_iff.mp hr
    refine ⟨hi, ?_⟩
    rw [hr]
    simpa using h

/-- The controllers a region listens to when it is loaded: those of its conditions and starts, and the pedals if it plays on
release. -/
def Listens (r : Reg) (cc : Nat) : Prop :=
  (∃ c, r.starts cc = some c) ∨ (∃ c, r.conds cc = some c) ∨ (r.release = true ∧ (cc = r.sustainCC ∨ cc = r.sostenutoCC))

theorem listens_iff (r : Reg) (cc : Nat) : listens r cc = true ↔ Listens r cc := by
  unfold listens Listens
  simp only [Bool.or_eq_true, Bool.and_eq_true, beq_iff_eq, Option.isSome_iff_exists]
  tauto

/-! ## Keys -/

/-- Whatever is edited and whatever happens, a region never answers a key outside the key range
which the file gave it. -/
theorem never_outside_loaded (block : Nat) (values : Nat → ℚ) (fx : List (Nat × Nat))
    (regs : List Reg) (ops : List Op) (i k : Nat) (r : Reg) (hr : regs[i]? = some r)
    (hk : ¬ (k < 128 ∧ r.keys.1 ≤ k ∧ k ≤ r.keys.2)) :
    ¬ answers (run (load block values fx regs) ops) i k := by
  rintro ⟨h, -⟩
  rw [(run_lists _ _).1] at h
  obtain ⟨r', hr', h⟩ := (mem_keyList regs i k).mp h
  rw [hr] at hr'
  cases hr'
  exact hk h

/-- The history leaves the conditions on controllers alone. -/
def noCond : Op → Bool
  | .cond .. => false
  | _ => true

theorem update_reg (l : Layer) (cc : Nat) (v : ℚ) : (l.update cc v).reg = l.reg := by
  unfold Layer.update; split <;> rfl

/-- Each layer still has the conditions it was loaded with, and its switches say whether they hold
of the current controller values. -/
def Switches (regs : List Reg) (e : Engine) : Prop :=
  ∀ (i : Nat) (l : Layer), e.layers[i]? = some l → ∃ r, regs[i]? = some r ∧ l.reg.conds = r.conds ∧
    ∀ cc, cc < 512 → l.switched cc = match r.conds cc with
      | none => true
      | some c => decide (within c (e.values cc))

theorem switches_step (regs : List Reg) (e : Engine) (hl : e.ccLists = ccList regs)
    (h : Switches regs e) (op : Op) (hop : noCond op = true) : Switches regs (step e op) := by
  intro i l hi
  have edit : ∀ (j : Nat) (f : Reg → Reg), (e.layers.modify j (Layer.edit f))[i]? = some l →
      (∀ r, (f r).conds = r.conds) → ∃ l', e.layers[i]? = some l' ∧
        l.reg.conds = l'.reg.conds ∧ l.switched = l'.switched := by
    intro j f hi hf
    rw [List.getElem?_modify] at hi
    cases hx : e.layers[i]? with
    | none => simp [hx] at hi
    | some l' =>
      rw [hx] at hi
      refine ⟨l', rfl, ?_⟩
      by_cases hj : j = i
      · simp only [hj, if_true, Option.map_eq_map, Option.map_some, Option.some.injEq] at hi
        subst hi
        exact ⟨hf _, rfl⟩
      · simp only [hj, if_false, Option.map_eq_map, Option.map_some, Option.some.injEq, id] at hi
        subst hi
        exact ⟨rfl, rfl⟩
  cases op with
  | keys j lo hi' =>
    obtain ⟨l', hl', h1, h2⟩ := edit j _ hi (fun _ => rfl)
    obtain ⟨r, hr, hc, hs⟩ := h i l' hl'
    exact ⟨r, hr, h1.trans hc, fun cc hcc => by rw [h2]; exact hs cc hcc⟩
  | output j o =>
    obtain ⟨l', hl', h1, h2⟩ := edit j _ hi (fun _ => rfl)
    obtain ⟨r, hr, hc, hs⟩ := h i l' hl'
    exact ⟨r, hr, h1.trans hc, fun cc hcc => by rw [h2]; exact hs cc hcc⟩
  | cond => simp [noCond] at hop
  | block n => exact h i l hi
  | cc cc v =>
    simp only [step, List.getElem?_mapIdx] at hi
    cases hx : e.layers[i]? with
    | none => simp [hx] at hi
    | some l' =>
      rw [hx] at hi
      simp only [Option.map_some, Option.some.injEq] at hi
      obtain ⟨r, hr, hc, hs⟩ := h i l' hx
      refine ⟨r, hr, ?_, ?_⟩
      · rw [← hi, ← hc]
        split
        · rw [update_reg]
        · rfl
      · intro c hcc
        simp only [step]
        by_cases hin : i ∈ e.ccLists cc
        · rw [if_pos hin] at hi
          rw [← hi]
          unfold Layer.update
          rw [hc]
          by_cases hcv : c = cc
          · subst hcv
            cases hrc : r.conds c with
            | none => simp only [hs c hcc, hrc]
            | some q => simp
          · cases hrc : r.conds cc with
            | none => simp only [hs c hcc, hcv, if_false]
            | some q => simp only [hcv, if_false]; exact hs c hcc
        · rw [if_neg hin] at hi
          rw [← hi, hs c hcc]
          by_cases hcv : c = cc
          · subst hcv
            have : r.conds c = none := by
              by_contra hne
              apply hin
              rw [hl, mem_ccList]
              refine ⟨r, hr, hcc, ?_⟩
              cases hq : r.conds c with
              | none => exact absurd hq hne
              | some q => simp [listens, hq]
            rw [this]
          · simp only [hcv, if_false]

theorem switches_load (block : Nat) (values : Nat → ℚ) (fx : List (Nat × Nat)) (regs : List Reg) :
    Switches regs (load block values fx regs) := by
  intro i l hi
  simp only [load, List.getElem?_map] at hi
  cases hx : regs[i]? with
  | none => simp [hx] at hi
  | some r =>
    rw [hx] at hi
    simp only [Option.map_some, Option.some.injEq] at hi
    subst hi
    exact ⟨r, rfl, rfl, fun cc _ => rfl⟩

theorem switches_run (block : Nat) (values : Nat → ℚ) (fx : List (Nat × Nat)) (regs : List Reg)
    (ops : List Op) (hops : ∀ op ∈ ops, noCond op = true) :
    Switches regs (run (load block values fx regs) ops) := by
  induction ops using List.reverseRecOn with
  | nil => exact switches_load block values fx regs
  | append_singleton ops op ih =>
    rw [run_snoc]
    exact switches_step regs _ (run_lists _ _).2.1 (ih fun o h => hops o (by simp [h])) op
      (hops op (by simp))

/-- The region of layer `i` as it is now. -/
def current (e : Engine) (i : Nat) : Option Reg := (e.layers[i]?).map (·.reg)

/-- **An edit of the key range takes effect with the numbers given, from 0 to 127; a number outside counts as not given.** -/
theorem key_edit (e : Engine) (ops : List Op) (i : Nat) (lo hi : ℤ) (r : Reg) (hr : current (run e ops) i = some r) :
    ∃ r', current (run e (ops ++ [.keys i lo hi])) i = some r' ∧
      (0 ≤ lo ∧ lo ≤ 127 → (r'.keys.1 : ℤ) = lo) ∧ (¬ (0 ≤ lo ∧ lo ≤ 127) → r'.keys.1 = 0) ∧
      (0 ≤ hi ∧ hi ≤ 127 → (r'.keys.2 : ℤ) = hi) ∧ (¬ (0 ≤ hi ∧ hi ≤ 127) → r'.keys.2 = 127) := by
  rw [run_snoc]
  simp only [current, Option.map_eq_some_iff] at hr
  obtain ⟨l, hl, rfl⟩ := hr
  refine ⟨{ l.reg with keys := (readKey 0 lo, readKey 127 hi) }, ?_, ?_⟩
  · simp [current, step, hl, Layer.edit]
  · simp only [readKey]
    refine ⟨?_, ?_, ?_, ?_⟩ <;> intro h <;> split <;> omega

/-- **Exactly what an edited key range does.**  After any history of edits to key ranges and
outputs, controller events and block size changes, a region answers a key when both the edited
instrument and the loaded one allow it. -/
theorem edited_keys (block : Nat) (values : Nat → ℚ) (fx : List (Nat × Nat)) (regs : List Reg)
    (ops : List Op) (hops : ∀ op ∈ ops, noCond op = true) (i k : Nat) (r now : Reg)
    (hr : regs[i]? = some r)
    (hnow : current (run (load block values fx regs) ops) i = some now) :
    answers (run (load block values fx regs) ops) i k ↔
      Plays now (run (load block values fx regs) ops).values k ∧ r.keys.1 ≤ k ∧ k ≤ r.keys.2 := by
  set e := run (load block values fx regs) ops with he
  have hsw := switches_run block values fx regs ops hops
  rw [← he] at hsw
  simp only [current, Option.map_eq_some_iff] at hnow
  obtain ⟨l, hl, rfl⟩ := hnow
  obtain ⟨r', hr', hc, hs⟩ := hsw i l hl
  rw [hr] at hr'
  cases hr'
  have hlist : e.noteLists = keyList regs := (run_lists _ _).1
  have key : (∀ cc, cc < 512 → l.switched cc = true) ↔
      ∀ cc, cc < 512 → ∀ c, l.reg.conds cc = some c → c.1 ≤ e.values cc ∧ e.values cc ≤ c.2 := by
    refine forall_congr' fun cc => forall_congr' fun hcc => ?_
    rw [hs cc hcc, hc]
    cases hq : r.conds cc with
    | none => simp
    | some q =>
      simp only [decide_eq_true_eq]
      exact ⟨fun h c hc => by cases hc; exact h, fun h => h q rfl⟩
  unfold answers Plays
  rw [hlist, mem_keyList, hr, hl, ← key]
  simp only [Option.some.injEq, exists_eq_left', hasKey, Bool.and_eq_true, decide_eq_true_eq]
  tauto

/-- **Narrowing works.**  When the edited range lies inside the loaded one, the region answers
exactly what the edited instrument says. -/
theorem narrowed_keys (block : Nat) (values : Nat → ℚ) (fx : List (Nat × Nat)) (regs : List Reg)
    (ops : List Op) (hops : ∀ op ∈ ops, noCond op = true) (i k : Nat) (r now : Reg)
    (hr : regs[i]? = some r)
    (hnow : current (run (load block values fx regs) ops) i = some now)
    (hin : r.keys.1 ≤ now.keys.1 ∧ now.keys.2 ≤ r.keys.2) :
    answers (run (load block values fx regs) ops) i k ↔
      Plays now (run (load block values fx regs) ops).values k := by
  rw [edited_keys block values fx regs ops hops i k r now hr hnow]
  constructor
  · exact fun h => h.1
  · intro h
    exact ⟨h, le_trans hin.1 h.1.2.1, le_trans h.1.2.2 hin.2⟩

/-- A region on keys 60 to 64, for the examples. -/
def sample : Reg where
  keys := (60, 64)
  conds := fun cc => if cc = 1 then some (0, 1 / 2) else none
  starts := fun _ => none
  release := false
  sustainCC := 64
  sostenutoCC := 66
  output := 0
  sends := fun j => j == 0

example : ∃ now, current (run (load 64 (fun _ => 0) [] [sample]) [.keys 0 61 62, .cc 1 (1 / 4)]) 0
    = some now ∧ (sample.keys.1 ≤ now.keys.1 ∧ now.keys.2 ≤ sample.keys.2) ∧
      Plays now (run (load 64 (fun _ => 0) [] [sample]) [.keys 0 61 62, .cc 1 (1 / 4)]).values 61 := by
  refine ⟨{ sample with keys := (61, 62) }, ?_, by decide, by decide, ?_⟩
  · have hcc : (0 : Nat) ∈ ccList [sample] 1 := by
      rw [mem_ccList]; exact ⟨sample, rfl, by decide, by simp [listens, sample]⟩
    simp [current, run, step, load, Layer.edit, readKey, freshLayer, update_reg, hcc]
  · intro cc _ c hc
    simp only [sample] at hc
    split at hc
    · subst_vars
      cases hc
      simp [run, step]
      norm_num
    · simp at hc

/-- **Widening does nothing.**  A region loaded for keys 60 to 64 and widened to 50 to 70 should
answer key 55; the engine never lets it. -/
theorem widened_keys_violated :
    ∃ (regs : List Reg) (ops : List Op) (now : Reg) (k : Nat),
      current (run (load 64 (fun _ => 0) [] regs) ops) 0 = some now ∧
      Plays now (run (load 64 (fun _ => 0) [] regs) ops).values k ∧
      ¬ answers (run (load 64 (fun _ => 0) [] regs) ops) 0 k := by
  refine ⟨[sample], [.keys 0 50 70], { sample with keys := (50, 70) }, 55, ?_, ⟨by decide, ?_⟩, ?_⟩
  · simp [current, run, step, load, Layer.edit, readKey, freshLayer]
  · intro cc _ c hc
    simp only [sample] at hc
    split at hc
    · cases hc
      simp [run, step, load]
    · simp at hc
  · exact never_outside_loaded 64 (fun _ => 0) [] [sample] _ 0 55 sample rfl (by decide)

/-! ## Controllers -/

/-- **A condition on a controller which the file did not mention is never looked at.**  If the
region was not listed for controller `cc` when it was loaded, then after any history, edits of its
conditions on `cc` included, the region's switch for `cc` is still on. -/
theorem new_condition_ignored (block : Nat) (values : Nat → ℚ) (fx : List (Nat × Nat))
    (regs : List Reg) (ops : List Op) (i cc : Nat) (r : Reg) (hr : regs[i]? = some r)
    (hcc : ¬ Listens r cc) (l : Layer)
    (hl : (run (load block values fx regs) ops).layers[i]? = some l) : l.switched cc = true := by
  rw [← listens_iff, Bool.not_eq_true] at hcc
  induction ops using List.reverseRecOn generalizing l with
  | nil =>
    simp only [run, List.foldl_nil, load, List.getElem?_map, hr, Option.map_some,
      Option.some.injEq] at hl
    subst hl
    have : r.conds cc = none := by
      cases hq : r.conds cc with
      | none => rfl
      | some q => simp [listens, hq] at hcc
    simp [freshLayer, this]
  | append_singleton ops op ih =>
    rw [run_snoc] at hl
    have hlists := (run_lists (load block values fx regs) ops).2.1
    set e := run (load block values fx regs) ops with he
    have edit : ∀ (j : Nat) (f : Reg → Reg),
        (e.layers.modify j (Layer.edit f))[i]? = some l → l.switched cc = true := by
      intro j f hi
      rw [List.getElem?_modify] at hi
      cases hx : e.layers[i]? with
      | none => simp [hx] at hi
      | some l' =>
        rw [hx] at hi
        by_cases hj : j = i
        · simp only [hj, if_true, Option.map_eq_map, Option.map_some, Option.some.injEq] at hi
          subst hi
          exact ih l' hx
        · simp only [hj, if_false, Option.map_eq_map, Option.map_some, Option.some.injEq, id] at hi
          subst hi
          exact ih l' hx
    cases op with
    | keys j lo hi' => exact edit j _ hl
    | output j o => exact edit j _ hl
    | cond j c lo hi' => exact edit j _ hl
    | block n => exact ih l hl
    | cc c v =>
      simp only [step, List.getElem?_mapIdx] at hl
      cases hx : e.layers[i]? with
      | none => simp [hx] at hl
      | some l' =>
        rw [hx] at hl
        simp only [Option.map_some, Option.some.injEq] at hl
        by_cases hin : i ∈ e.ccLists c
        · rw [if_pos hin] at hl
          have hne : cc ≠ c := by
            rintro rfl
            rw [hlists] at hin
            obtain ⟨r', hr', -, h⟩ := (mem_ccList regs i cc).mp hin
            rw [hr] at hr'
            cases hr'
            simp [hcc] at h
          rw [← hl]
          unfold Layer.update
          split
          · exact ih l' hx
          · simp only [hne, if_false]; exact ih l' hx
        · rw [if_neg hin] at hl
          rw [← hl]
          exact ih l' hx

/-- **A condition added by message is ignored.**  The region is told to play only while controller
20 is in the upper half; the controller is then moved to 0, and the region still answers. -/
theorem new_condition_violated :
    ∃ (regs : List Reg) (ops : List Op) (now : Reg) (k : Nat),
      current (run (load 64 (fun _ => 0) [] regs) ops) 0 = some now ∧
      ¬ Plays now (run (load 64 (fun _ => 0) [] regs) ops).values k ∧
      answers (run (load 64 (fun _ => 0) [] regs) ops) 0 k := by
  set r : Reg := { sample with conds := fun _ => none } with hrdef
  have hnl : ∀ cc, listens r cc = false := by intro cc; simp [listens, r, sample]
  have hnc : ∀ cc, (0 : Nat) ∉ ccList [r] cc := by
    intro cc h
    obtain ⟨r', hr', -, h⟩ := (mem_ccList [r] 0 cc).mp h
    simp only [List.getElem?_cons_zero, Option.some.injEq] at hr'
    subst hr'
    simp [hnl] at h
  have hlayer : (run (load 64 (fun _ => 0) [] [r]) [.cond 0 20 (1 / 2) 1, .cc 20 0]).layers[0]?
      = some { freshLayer (fun _ => 0) r with reg := { r with
          conds := fun c => if c = 20 then some (1 / 2, 1) else r.conds c } } := by
    simp [run, step, load, Layer.edit, hnc, freshLayer]
  refine ⟨[r], [.cond 0 20 (1 / 2) 1, .cc 20 0], _, 60, by rw [current, hlayer]; rfl, ?_, ?_⟩
  · rintro ⟨-, h⟩
    have := h 20 (by decide) (1 / 2, 1) (by simp)
    simp [run, step] at this
    norm_num at this
  · refine ⟨?_, _, hlayer, ?_, ?_⟩
    · rw [(run_lists _ _).1]
      exact (mem_keyList [r] 0 60).mpr ⟨r, rfl, by decide, by decide⟩
    · decide
    · intro cc _
      simp [freshLayer, r]

/-- **A condition on a controller the region already listens to is obeyed from the next event on.**
If the region was listed for `cc` at load, then right after an event on `cc` its switch says
whether the current condition, edited or not, holds of the value. -/
theorem known_condition_obeyed (block : Nat) (values : Nat → ℚ) (fx : List (Nat × Nat))
    (regs : List Reg) (ops : List Op) (i cc : Nat) (v : ℚ) (r : Reg) (hr : regs[i]? = some r)
    (hc512 : cc < 512) (hcc : Listens r cc) (l : Layer) (c : ℚ × ℚ)
    (hl : (run (load block values fx regs) (ops ++ [.cc cc v])).layers[i]? = some l)
    (hcond : l.reg.conds cc = some c) :
    l.switched cc = true ↔ c.1 ≤ v ∧ v ≤ c.2 := by
  rw [← listens_iff] at hcc
  rw [run_snoc] at hl
  have hlists := (run_lists (load block values fx regs) ops).2.1
  have hin : i ∈ (run (load block values fx regs) ops).ccLists cc := by
    rw [hlists]
    exact (mem_ccList regs i cc).mpr ⟨r, hr, hc512, hcc⟩
  simp only [step, List.getElem?_mapIdx, hin, if_true] at hl
  cases hx : (run (load block values fx regs) ops).layers[i]? with
  | none => simp [hx] at hl
  | some l' =>
    rw [hx] at hl
    simp only [Option.map_some, Option.some.injEq] at hl
    subst hl
    rw [update_reg] at hcond
    simp only [Layer.update, hcond, if_true, decide_eq_true_eq]
    rfl

example : Listens sample 1 := by simp [Listens, sample]

/-! ## Outputs and block sizes -/

/-- Every bus of the outputs in use has buffers of at least the block size. -/
def Sized (e : Engine) : Prop :=
  ∀ i, i < e.numOutputs → ∃ bs, e.buses[i]? = some bs ∧ ∀ b ∈ bs, ∀ c, b = some c → c = e.block

theorem addOutputs_mem (block output : Nat) (b : List (List (Option Nat)))
    (h : ∀ bs ∈ b, ∀ x ∈ bs, ∀ c, x = some c → c = block) :
    (∀ bs ∈ addOutputs block output b, ∀ x ∈ bs, ∀ c, x = some c → c = block) ∧
      output < (addOutputs block output b).length := by
  constructor
  · intro bs hbs x hx c hc
    rcases List.mem_append.mp hbs with hb | hb
    · exact h bs hb x hx c hc
    · rw [(List.mem_replicate.mp hb).2] at hx
      simp only [List.mem_singleton] at hx
      subst hx
      exact (Option.some.inj hc).symm
  · simp [addOutputs]; omega

theorem withBus_mem (block index : Nat) (b : List (Option Nat))
    (h : ∀ x ∈ b, ∀ c, x = some c → c = block) :
    ∀ x ∈ withBus block index b, ∀ c, x = some c → c = block := by
  intro x hx c hc
  have hbase : ∀ x ∈ b ++ List.replicate (index + 1 - b.length) (none : Option Nat),
      ∀ c, x = some c → c = block := by
    intro x hx c hc
    rcases List.mem_append.mp hx with hb | hb
    · exact h x hb c hc
    · rw [(List.mem_replicate.mp hb).2] at hc; simp at hc
  unfold withBus at hx
  simp only at hx
  split at hx
  · rcases List.mem_or_eq_of_mem_set hx with hb | hb
    · exact hbase x hb c hc
    · rw [hb] at hc; exact (Option.some.inj hc).symm
  · exact hbase x hx c hc

theorem addEffect_mem (block : Nat) (b : List (List (Option Nat))) (fx : Nat × Nat)
    (h : ∀ bs ∈ b, ∀ x ∈ bs, ∀ c, x = some c → c = block) :
    ∀ bs ∈ addEffect block b fx, ∀ x ∈ bs, ∀ c, x = some c → c = block := by
  intro bs hbs
  obtain ⟨j, hj⟩ := List.mem_iff_getElem?.mp hbs
  unfold addEffect at hj
  rw [List.getElem?_modify] at hj
  have ho := (addOutputs_mem block fx.1 b h).1
  cases hx : (addOutputs block fx.1 b)[j]? with
  | none => simp [hx] at hj
  | some bs' =>
    rw [hx] at hj
    have hb' := ho bs' (List.mem_iff_getElem?.mpr ⟨j, hx⟩)
    by_cases hji : fx.1 = j
    · simp only [hji, if_true, Option.map_eq_map, Option.map_some, Option.some.injEq] at hj
      subst hj
      exact withBus_mem block fx.2 bs' hb'
    · simp only [hji, if_false, Option.map_eq_map, Option.map_some, Option.some.injEq, id] at hj
      subst hj
      exact hb'

theorem foldl_max_le (regs : List Reg) (n : Nat) :
    n ≤ regs.foldl (fun n r => max (r.output + 1) n) n ∧
      ∀ r ∈ regs, r.output < regs.foldl (fun n r => max (r.output + 1) n) n := by
  induction regs generalizing n with
  | nil => simp
  | cons r regs ih =>
    simp only [List.foldl_cons, List.mem_cons, forall_eq_or_imp]
    have h := ih (max (r.output + 1) n)
    exact ⟨le_trans (le_max_right _ _) h.1,
      Nat.lt_of_lt_of_le (Nat.lt_succ_self _) (le_trans (le_max_left _ _) h.1), h.2⟩

theorem sized_load (block : Nat) (values : Nat → ℚ) (fx : List (Nat × Nat)) (regs : List Reg) :
    Sized (load block values fx regs) := by
  have h0 := (addOutputs_mem block 0 [] (by simp)).1
  have hfx : ∀ bs ∈ fx.foldl (addEffect block) (addOutputs block 0 []), ∀ x ∈ bs, ∀ c, x = some c →
      c = block := by
    have gen : ∀ b : List (List (Option Nat)), (∀ bs ∈ b, ∀ x ∈ bs, ∀ c, x = some c → c = block) →
        ∀ bs ∈ fx.foldl (addEffect block) b, ∀ x ∈ bs, ∀ c, x = some c → c = block := by
      induction fx with
      | nil => intro b hb; exact hb
      | cons f fx ih => intro b hb; exact ih _ (addEffect_mem block b f hb)
    exact gen _ h0
  have h := addOutputs_mem block (load block values fx regs).numOutputs _ hfx
  intro i hi
  have hlen : i < (load block values fx regs).buses.length := lt_trans hi h.2
  exact ⟨_, List.getElem?_eq_getElem hlen, h.1 _ (List.getElem_mem hlen)⟩

theorem sized_step (e : Engine) (op : Op) (h : Sized e) : Sized (step e op) := by
  cases op with
  | keys => exact h
  | output => exact h
  | cond => exact h
  | cc => exact h
  | block n =>
    intro i hi
    obtain ⟨bs, hbs, -⟩ := h i hi
    refine ⟨bs.map fun c => c.map fun _ => n, ?_, ?_⟩
    · have : i < e.numOutputs := hi
      simp [step, hbs, this]
    · intro b hb c hc
      obtain ⟨x, -, rfl⟩ := List.mem_map.mp hb
      cases x with
      | none => simp at hc
      | some y => simp at hc; exact hc.symm

theorem sized_run (block : Nat) (values : Nat → ℚ) (fx : List (Nat × Nat)) (regs : List Reg)
    (ops : List Op) : Sized (run (load block values fx regs) ops) := by
  induction ops using List.reverseRecOn with
  | nil => exact sized_load block values fx regs
  | append_singleton ops op ih => rw [run_snoc]; exact sized_step _ _ ih

/-- The outputs of the loaded file: what the host is told there are. -/
def outputs (regs : List Reg) : Nat := regs.foldl (fun n r => max (r.output + 1) n) 1

/-- An edit which keeps to the outputs the loaded file has. -/
def keepsOutputs (regs : List Reg) : Op → Prop
  | .output _ o => o.toNat < outputs regs
  | _ => True

theorem outputs_run (block : Nat) (values : Nat → ℚ) (fx : List (Nat × Nat)) (regs : List Reg)
    (ops : List Op) (hops : ∀ op ∈ ops, keepsOutputs regs op) :
    ∀ l ∈ (run (load block values fx regs) ops).layers, l.reg.output < outputs regs := by
  induction ops using List.reverseRecOn with
  | nil =>
    intro l hl
    simp only [run, List.foldl_nil, load, List.mem_map] at hl
    obtain ⟨r, hr, rfl⟩ := hl
    exact (foldl_max_le regs 1).2 r hr
  | append_singleton ops op ih =>
    rw [run_snoc]
    have ih := ih fun o h => hops o (by simp [h])
    have hop := hops op (by simp)
    set e := run (load block values fx regs) ops with he
    have edit : ∀ (j : Nat) (f : Reg → Reg), (∀ r : Reg, r.output < outputs regs →
        (f r).output < outputs regs) → ∀ l ∈ e.layers.modify j (Layer.edit f),
        l.reg.output < outputs regs := by
      intro j f hf l hl
      obtain ⟨k, hk⟩ := List.mem_iff_getElem?.mp hl
      rw [List.getElem?_modify] at hk
      cases hx : e.layers[k]? with
      | none => simp [hx] at hk
      | some l' =>
        rw [hx] at hk
        have hl' := ih l' (List.mem_iff_getElem?.mpr ⟨k, hx⟩)
        by_cases hj : j = k
        · simp only [hj, if_true, Option.map_eq_map, Option.map_some, Option.some.injEq] at hk
          subst hk
          exact hf _ hl'
        · simp only [hj, if_false, Option.map_eq_map, Option.map_some, Option.some.injEq, id] at hk
          subst hk
          exact hl'
    cases op with
    | keys j lo hi => exact edit j _ fun r h => h
    | cond j c lo hi => exact edit j _ fun r h => h
    | output j o =>
      refine edit j _ fun r _ => ?_
      exact lt_of_le_of_lt (min_le_left _ _) hop
    | block n => exact ih
    | cc c v =>
      intro l hl
      simp only [step, List.mem_mapIdx] at hl
      obtain ⟨k, hk, rfl⟩ := hl
      have := ih _ (List.getElem_mem hk)
      split
      · rw [update_reg]; exact this
      · exact this

/-- **Rendering stays safe and complete while edits keep to the existing outputs.**  After any
history of edits, controller events and block size changes in which regions are only moved to
outputs the loaded file has, rendering any number of frames up to the block size touches no memory
out of bounds, whichever voices play, and every voice is heard.
Missing: moves to other outputs (`moved_output_violated`, `moved_output_silent_violated`). -/
theorem edited_render_partial (block : Nat) (values : Nat → ℚ) (fx : List (Nat × Nat))
    (regs : List Reg) (ops : List Op) (hops : ∀ op ∈ ops, keepsOutputs regs op) (n : Nat)
    (hn : n ≤ (run (load block values fx regs) ops).block) (voices : List Nat)
    (hv : ∀ i ∈ voices, i < regs.length) :
    render (run (load block values fx regs) ops) voices n = some (voices.map fun _ => true) := by
  have hs := sized_run block values fx regs ops
  have ho := outputs_run block values fx regs ops hops
  have hl := run_lists (load block values fx regs) ops
  have hno : (run (load block values fx regs) ops).numOutputs = outputs regs := hl.2.2.1
  have hlen : (run (load block values fx regs) ops).layers.length = regs.length := by
    rw [hl.2.2.2.1]; simp [load]
  set e := run (load block values fx regs) ops with he
  have hfit : ∀ i, i < e.numOutputs → ∃ bs, e.buses[i]? = some bs ∧ ∀ b ∈ bs, fits n b = true := by
    intro i hi
    obtain ⟨bs, hbs, hb⟩ := hs i hi
    refine ⟨bs, hbs, fun b hmem => ?_⟩
    cases b with
    | none => rfl
    | some c => simp [fits, hb _ hmem c rfl, hn]
  have h1 : outputsOk e n = true := by
    simp only [outputsOk, List.all_eq_true, List.mem_range]
    intro i hi
    obtain ⟨bs, hbs, hb⟩ := hfit i hi
    rw [hbs]
    simpa using hb
  have hlayer : ∀ i ∈ voices, ∃ l, e.layers[i]? = some l ∧ l.reg.output < e.numOutputs := by
    intro i hi
    have hlt : i < e.layers.length := by rw [hlen]; exact hv i hi
    exact ⟨e.layers[i], List.getElem?_eq_getElem hlt, by rw [hno]; exact ho _ (List.getElem_mem hlt)⟩
  have h2 : voices.all (voiceOk e n) = true := by
    simp only [List.all_eq_true]
    intro i hi
    obtain ⟨l, hl, hout⟩ := hlayer i hi
    obtain ⟨bs, hbs, hb⟩ := hfit _ hout
    simp only [voiceOk, hl, hbs, List.all_eq_true, List.mem_range]
    intro j hj
    have : fits n (bs[j]?.join) = true := by
      rw [List.getElem?_eq_getElem hj]
      exact hb _ (List.getElem_mem hj)
    simp [this]
  rw [render, h1, h2]
  simp only [Bool.and_self, if_true, Option.some.injEq]
  apply List.map_congr_left
  intro i hi
  obtain ⟨l, hl, hout⟩ := hlayer i hi
  simp [hl, hout]

example : render (run (load 64 (fun _ => 0) [(0, 2)] [sample, { sample with output := 1 }])
    [.block 128, .output 0 1, .keys 1 0 127]) [0, 1, 0] 128 = some [true, true, true] := by
  apply edited_render_partial
  · intro op hop
    simp only [List.mem_cons, List.not_mem_nil, or_false] at hop
    rcases hop with rfl | rfl | rfl <;> simp [keepsOutputs, outputs, sample]
  · simp [run, step]
  · simp

/-- **Moving a region to another output by message reads past the table of outputs.**  In an
instrument with one output, a region moved to output 5 makes the next block access output 5, which
does not exist. -/
theorem moved_output_violated (block : Nat) (n : Nat) :
    render (run (load block (fun _ => 0) [] [sample]) [.output 0 5]) [0] n = none := by
  have h : voiceOk (run (load block (fun _ => 0) [] [sample]) [.output 0 5]) n 0 = false := by
    simp [voiceOk, run, step, load, Layer.edit, freshLayer, readOutput, sample, addOutputs]
  simp [render, h]

/-- **A region moved to the output just past the last one is silent.**  The engine makes one output
more than it mixes: the move is safe, but the voice never reaches the host. -/
theorem moved_output_silent_violated (block n : Nat) (hn : n ≤ block) :
    render (run (load block (fun _ => 0) [] [sample]) [.output 0 1]) [0] n = some [false] := by
  simp [render, outputsOk, voiceOk, run, step, load, Layer.edit, freshLayer, readOutput, sample,
    addOutputs, fits, hn]

/-- **… until the block size is raised**: the buffers of that extra output are not resized, and the
voice writes past their end. -/
theorem moved_output_overrun_violated (block n : Nat) (hn : block < n) :
    render (run (load block (fun _ => 0) [] [sample]) [.block n, .output 0 1]) [0] n = none := by
  have h : voiceOk (run (load block (fun _ => 0) [] [sample]) [.block n, .output 0 1]) n 0 = false := by
    simp [voiceOk, run, step, load, Layer.edit, freshLayer, readOutput, sample, addOutputs, fits,
      List.replicate, hn]
  simp [render, h]

end Verif.Edit
