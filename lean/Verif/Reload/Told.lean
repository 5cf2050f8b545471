import Verif.Reload.Props

/-!
# Settings are what the instrument says last

C105, the other half: what a load sets.  The specifications read the list of opcodes from its end.
-/
namespace Verif.Reload

/-! ### Specification: the last word of a list of opcodes -/

/-- The last value given to a controller. -/
def lastCC (n : Nat) (cs : List Control) : Option ℚ := cs.reverse.findSome? fun
  | .setCC k v => if k = n then some v else none
  | _ => none

/-- The last limit given to a group. -/
def lastGroup (g : Int) (cs : List Control) : Option Nat := cs.reverse.findSome? fun
  | .groupPolyphony k n => if k = g then some n else none
  | _ => none

/-- The last name given to a controller. -/
def lastCCName (n : Nat) (cs : List Control) : Option String := cs.reverse.findSome? fun
  | .labelCC k l => if k = n then some l else none
  | _ => none

/-- The last name given to a key. -/
def lastKeyName (n : Nat) (cs : List Control) : Option String := cs.reverse.findSome? fun
  | .labelKey k l => if k = n then some l else none
  | _ => none

/-- The default path in force at the end: the last one given, unless a control header came after it. -/
def lastPath (cs : List Control) : String := (cs.reverse.findSome? fun
  | .header => some ""
  | .defaultPath p => some p
  | _ => none).getD ""

/-- The file of the image: the last one given, under the default path in force where it is given. `cs` is read from its end. -/
def lastImageRev : List Control → String
  | [] => ""
  | .image f :: before => lastPath before.reverse ++ f
  | _ :: before => lastImageRev before

/-- The file of the image that the instrument asks for. -/
def lastImage (cs : List Control) : String := lastImageRev cs.reverse

/-! ### Tables of names and limits -/

theorem lookup_setLabel (k j : Nat) (s : String) (l : List (Nat × String)) :
    (setLabel k s l).lookup j = if j = k then some s else l.lookup j := by
  unfold setLabel
  by_cases h : l.any (fun p => p.1 = k) = true
  · rw [if_pos h]
    induction l with
    | nil => simp at h
    | cons p l ih =>
      obtain ⟨a, b⟩ := p
      by_cases ha : a = k
      · subst ha
        by_cases hj : j = a
        · subst hj; simp
        · have hj' : (j == a) = false := by simpa using hj
          simp only [List.map_cons, if_true, List.lookup_cons, hj', hj, if_false]
          by_cases hr : l.any (fun p => p.1 = a) = true
          · have := ih hr; simpa [hj] using this
          · have hm : l.map (fun p => if p.1 = a then (a, s) else p) = l := by
              rw [List.map_congr_left (g := id)]
              · simp
              · intro q hq
                simp only [List.any_eq_true, not_exists, not_and] at hr
                have := hr q hq
                simp only [decide_eq_true_eq] at this
                simp [this]
            rw [hm]
      · have hl : l.any (fun p => p.1 = k) = true := by
          simpa [ha] using h
        have := ih hl
        simp only [List.map_cons, ha, if_false, List.lookup_cons]
        by_cases hj : j = a
        · subst hj; simp [ha]
        · have hj' : (j == a) = false := by simpa using hj
          simpa [hj'] using this
  · rw [if_neg h, List.lookup_append]
    by_cases hj : j = k
    · subst hj
      have : l.lookup j = none := by
        rw [List.lookup_eq_none_iff]
        intro q hq
        simp only [List.any_eq_true, not_exists, not_and] at h
        have := h q hq
        simp only [decide_eq_true_eq] at this
        simpa using fun e => this e.symm
      simp [this]
    · have hj' : (j == k) = false := by simpa using hj
      simp [hj, hj', List.lookup]

theorem lookup_setGroup (k j : Int) (s : Nat) (l : List (Int × Nat)) :
    (setGroup k s l).lookup j = if j = k then some s else l.lookup j := by
  unfold setGroup
  by_cases h : l.any (fun p => p.1 = k) = true
  · rw [if_pos h]
    induction l with
    | nil => simp at h
    | cons p l ih =>
      obtain ⟨a, b⟩ := p
      by_cases ha : a = k
      · subst ha
        by_cases hj : j = a
        · subst hj; simp
        · have hj' : (j == a) = false := by simpa using hj
          simp only [List.map_cons, if_true, List.lookup_cons, hj', hj, if_false]
          by_cases hr : l.any (fun p => p.1 = a) = true
          · have := ih hr; simpa [hj] using this
          · have hm : l.map (fun p => if p.1 = a then (a, s) else p) = l := by
              rw [List.map_congr_left (g := id)]
              · simp
              · intro q hq
                simp only [List.any_eq_true, not_exists, not_and] at hr
                have := hr q hq
                simp only [decide_eq_true_eq] at this
                simp [this]
            rw [hm]
      · have hl : l.any (fun p => p.1 = k) = true := by
          simpa [ha] using h
        have := ih hl
        simp only [List.map_cons, ha, if_false, List.lookup_cons]
        by_cases hj : j = a
        · subst hj; simp [ha]
        · have hj' : (j == a) = false := by simpa using hj
          simpa [hj'] using this
  · rw [if_neg h, List.lookup_append]
    by_cases hj : j = k
    · subst hj
      have : l.lookup j = none := by
        rw [List.lookup_eq_none_iff]
        intro q hq
        simp only [List.any_eq_true, not_exists, not_and] at h
        have := h q hq
        simp only [decide_eq_true_eq] at this
        simpa using fun e => this e.symm
      simp [this]
    · have hj' : (j == k) = false := by simpa using hj
      simp [hj, hj', List.lookup]

/-! ### C105: what is told -/

/-- C105: the polyphony of a group after any history is the last one the loaded instrument gives it; a group it does not
mention has no limit of its own, apart from group 0, which holds all voices. -/
theorem group_told (ops : List Op) (p : String) (cs : List Control) (g : Int) :
    (after ops p cs).groups.lookup g =
      match lastGroup g cs with
      | some n => some n
      | none => if g = 0 then some 256 else none := by
  unfold after
  rw [run_snoc, step, load]
  generalize decide ((run fresh ops).path = p) = r
  induction cs using List.reverseRecOn with
  | nil =>
    have : (prepare p (run fresh ops)).groups = [(0, 256)] := by
      unfold prepare; by_cases h : (run fresh ops).path = p <;> simp [h, clear, setStealing, resetDefaultCC]
    simp only [List.foldl_nil, this, lastGroup, List.reverse_nil, List.findSome?_nil]
    by_cases hg : g = 0
    · simp [hg]
    · have : (g == 0) = false := by simpa using hg
      simp [List.lookup, hg, this]
  | append_singleton cs c ih =>
    rw [List.foldl_append, List.foldl_cons, List.foldl_nil]
    have hl : lastGroup g (cs ++ [c]) = match c with
        | .groupPolyphony k n => if k = g then some n else lastGroup g cs
        | _ => lastGroup g cs := by
      unfold lastGroup
      rw [List.reverse_append]
      cases c with
      | groupPolyphony k n => by_cases h : k = g <;> simp [h]
      | _ => simp
    rw [hl]
    cases c with
    | groupPolyphony k n =>
      simp only [control]
      rw [lookup_setGroup]
      by_cases h : k = g
      · subst h; simp
      · rw [if_neg h, if_neg (fun e => h e.symm)]; exact ih
    | _ => simpa only [control, setStealing] using ih

/-- C105: the name of a key after any history is the last one the loaded instrument gives it. -/
theorem key_name_told (ops : List Op) (p : String) (cs : List Control) (k : Nat) :
    (after ops p cs).keyLabels.lookup k = lastKeyName k cs := by
  unfold after
  rw [run_snoc, step, load]
  generalize decide ((run fresh ops).path = p) = r
  induction cs using List.reverseRecOn with
  | nil =>
    have : (prepare p (run fresh ops)).keyLabels = [] := by
      unfold prepare; by_cases h : (run fresh ops).path = p <;> simp [h, clear, setStealing, resetDefaultCC]
    simp [this, lastKeyName]
  | append_singleton cs c ih =>
    rw [List.foldl_append, List.foldl_cons, List.foldl_nil]
    have hl : lastKeyName k (cs ++ [c]) = match c with
        | .labelKey j l => if j = k then some l else lastKeyName k cs
        | _ => lastKeyName k cs := by
      unfold lastKeyName
      rw [List.reverse_append]
      cases c with
      | labelKey j l => by_cases h : j = k <;> simp [h]
      | _ => simp
    rw [hl]
    cases c with
    | labelKey j l =>
      simp only [control]
      rw [lookup_setLabel]
      by_cases h : j = k
      · subst h; simp
      · rw [if_neg h, if_neg (fun e => h e.symm)]; exact ih
    | _ => simpa only [control, setStealing] using ih

/-- C105 (partial): the name of a controller is the last one the instrument gives it. When it gives none, controllers 7, 10 and
11 have their usual names and others have none, for a file other than the one loaded last.
Missing: the usual names after a reload (`reload_names_violated`). -/
theorem controller_name_told_partial (ops : List Op) (p : String) (cs : List Control) (n : Nat) :
    (∀ l, lastCCName n cs = some l → (after ops p cs).ccLabels.lookup n = some l) ∧
    (lastCCName n cs = none → p ≠ lastLoaded ops → (after ops p cs).ccLabels.lookup n =
      if n = 7 then some "Volume" else if n = 10 then some "Pan" else if n = 11 then some "Expression" else none) := by
  have key : (after ops p cs).ccLabels.lookup n = match lastCCName n cs with
      | some l => some l
      | none => (prepare p (run fresh ops)).ccLabels.lookup n := by
    unfold after
    rw [run_snoc, step, load]
    generalize decide ((run fresh ops).path = p) = r
    induction cs using List.reverseRecOn with
    | nil => simp [lastCCName]
    | append_singleton cs c ih =>
      rw [List.foldl_append, List.foldl_cons, List.foldl_nil]
      have hl : lastCCName n (cs ++ [c]) = match c with
          | .labelCC j l => if j = n then some l else lastCCName n cs
          | _ => lastCCName n cs := by
        unfold lastCCName
        rw [List.reverse_append]
        cases c with
        | labelCC j l => by_cases h : j = n <;> simp [h]
        | _ => simp
      rw [hl]
      cases c with
      | labelCC j l =>
        simp only [control]
        rw [lookup_setLabel]
        by_cases h : j = n
        · subst h; simp
        · rw [if_neg h, if_neg (fun e => h e.symm)]; exact ih
      | _ => simpa only [control, setStealing] using ih
  constructor
  · intro l hl
    rw [key, hl]
  · intro hl hp
    have hs : (run fresh ops).path ≠ p := by rw [run_path]; exact fun h => hp h.symm
    rw [key, hl]
    have : (prepare p (run fresh ops)).ccLabels =
        setLabel 11 "Expression" (setLabel 10 "Pan" (setLabel 7 "Volume" [])) := by
      unfold prepare; simp [hs, clear, setStealing, resetDefaultCC]
    rw [this]
    simp only [lookup_setLabel, List.lookup_nil]
    by_cases h7 : n = 7
    · subst h7; simp
    · by_cases h10 : n = 10
      · subst h10; simp
      · simp [h7, h10]

/-- The default path of the engine is the one in force. -/
theorem path_told (ops : List Op) (p : String) (cs : List Control) : (after ops p cs).defaultPath = lastPath cs := by
  unfold after
  rw [run_snoc, step, load]
  generalize decide ((run fresh ops).path = p) = r
  induction cs using List.reverseRecOn with
  | nil => unfold prepare; by_cases h : (run fresh ops).path = p <;> simp [h, clear, setStealing, resetDefaultCC, lastPath]
  | append_singleton cs c ih =>
    rw [List.foldl_append, List.foldl_cons, List.foldl_nil]
    have hl : lastPath (cs ++ [c]) = match c with
        | .header => ""
        | .defaultPath q => q
        | _ => lastPath cs := by
      unfold lastPath
      rw [List.reverse_append]
      cases c <;> simp
    rw [hl]
    cases c <;> first | rfl | (simpa only [control, setStealing] using ih)

/-- C105: the image after any history is the last one the loaded instrument gives, under the default path in force where it
gives it, and none if it gives none. -/
theorem image_told (ops : List Op) (p : String) (cs : List Control) : (after ops p cs).image = lastImage cs := by
  unfold after
  rw [run_snoc, step, load]
  induction cs using List.reverseRecOn with
  | nil => unfold prepare; by_cases h : (run fresh ops).path = p <;>
             simp [h, clear, setStealing, resetDefaultCC, lastImage, lastImageRev]
  | append_singleton cs c ih =>
    rw [List.foldl_append, List.foldl_cons, List.foldl_nil]
    have hl : lastImage (cs ++ [c]) = match c with
        | .image f => lastPath cs ++ f
        | _ => lastImage cs := by
      unfold lastImage
      rw [List.reverse_append]
      cases c <;> simp [lastImageRev]
    rw [hl]
    cases c with
    | image f =>
      have := path_told ops p cs
      rw [after, run_snoc, step, load] at this
      simp only [control]
      rw [this]
    | _ => simpa only [control, setStealing] using ih

/-- C105 (partial): a reset of all controllers after the load sends each to the last value the instrument gives it, and to its
usual one when it gives none, for a file other than the one loaded last.
Missing: after a reload, `reload_defaults_violated`. -/
theorem reset_told_partial (ops : List Op) (p : String) (cs : List Control) (moves : List (Nat × ℚ)) (n : Nat)
    (hp : p ≠ lastLoaded ops) :
    (run (after ops p cs) (moves.map (fun m => Op.cc m.1 m.2) ++ [.resetCC])).cc n =
      match lastCC n cs with
      | some v => v
      | none => if n = 7 then 100 / 127 else if n = 10 then 1 / 2 else if n = 11 then 1 else 0 := by
  have hs : (run fresh ops).path ≠ p := by rw [run_path]; exact fun h => hp h.symm
  have hm : (run (after ops p cs) (moves.map fun m => Op.cc m.1 m.2)).ccDefault = (after ops p cs).ccDefault := by
    induction moves using List.reverseRecOn with
    | nil => rfl
    | append_singleton ms m ih => rw [List.map_append, List.map_singleton, run_snoc, step]; exact ih
  rw [run_snoc, step]
  simp only
  rw [hm]
  clear hm
  unfold after
  rw [run_snoc, step, load]
  generalize decide ((run fresh ops).path = p) = r
  induction cs using List.reverseRecOn with
  | nil =>
    unfold prepare
    simp [hs, clear, setStealing, resetDefaultCC, initialCC, lastCC]
  | append_singleton cs c ih =>
    rw [List.foldl_append, List.foldl_cons, List.foldl_nil]
    have hl : lastCC n (cs ++ [c]) = match c with
        | .setCC k v => if k = n then some v else lastCC n cs
        | _ => lastCC n cs := by
      unfold lastCC
      rw [List.reverse_append]
      cases c with
      | setCC k v => by_cases h : k = n <;> simp [h]
      | _ => simp
    rw [hl]
    cases c with
    | setCC k v =>
      simp only [control, Function.update_apply]
      by_cases h : k = n
      · subst h; simp
      · rw [if_neg h, if_neg (fun e => h e.symm)]; exact ih
    | _ => simpa only [control, setStealing] using ih

/-- Non-vacuity: an instrument that gives everything twice, after another one. -/
example : lastGroup 3 [.groupPolyphony 3 2, .groupPolyphony 1 4, .groupPolyphony 3 5] = some 5 ∧
    lastImage [.defaultPath "a/", .image "x.png", .header, .image "y.png", .defaultPath "b/"] = "y.png" ∧
    lastImage [.defaultPath "a/", .image "x.png", .labelKey 60 "C"] = "a/x.png" ∧
    (after [.load "a.sfz" [.groupPolyphony 3 2, .image "old.png"]] "b.sfz"
      [.groupPolyphony 3 1, .groupPolyphony 3 5, .defaultPath "a/", .image "x.png"]).image = "a/x.png" ∧
    lastCC 20 [.setCC 20 1, .setCC 21 1, .setCC 20 (1 / 4)] = some (1 / 4) ∧
    "b.sfz" ≠ lastLoaded [.load "a.sfz" [.groupPolyphony 3 2, .image "old.png"]] := by
  refine ⟨?_, ?_, ?_, ?_, ?_, ?_⟩ <;> decide +kernel

end Verif.Reload
