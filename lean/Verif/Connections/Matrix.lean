import Verif.Connections.Props

/-!
C141, for whole instruments: the default controllers, and the modulation matrix.
-/
namespace Verif.Connections
open Verif.ModMatrix (ModKey ModId Builder Conn Target Source)

/-! ## Specification -/

/-- Some region of the instrument uses the controller: for a modulation, or otherwise. -/
def Uses (rs : List Region) (n : Nat) : Prop :=
  ∃ r ∈ rs, r.used n = true ∨ ∃ T p, Op.cc n T p ∈ r.ops

/-- What the controllers of volume (7), pan (10) and expression (11) do by default, and with which curve. -/
def byDefault (id : Nat) : Nat → Option (ModKey × Nat)
  | 7 => some (⟨.Amplitude, some id, 0, 0⟩, 4)
  | 10 => some (⟨.Pan, some id, 0, 0⟩, 1)
  | 11 => some (⟨.Amplitude, some id, 0, 0⟩, 4)
  | _ => none

/-- The parameters that an opcode of a region acts on belong to the region. -/
def Op.own (id : Nat) : Op → Prop
  | .cc _ t _ => t.region = some id
  | .depth _ t _ => t.region = some id
  | .depthMod _ t _ => t.region = some id
  | .vel _ t _ => t.region = some id
  | .make _ t => t.region = some id

/-- The key registered at an index. -/
def keyAt {A : Type} (l : List (Src × A)) (i : Nat) : Option Src := l[i]?.map (·.1)

/-- A connection of the matrix with the keys in place of the indices: the source, the depth, the modulation of the depth and
the dependency on the velocity. -/
def decode (b : Builder Src) (c : Conn) : Option Src × ℚ × Option Src × ℚ :=
  (keyAt b.srcs c.source, c.depth, c.depthMod.bind (keyAt b.tgts), c.velToDepth)

/-- The connections to the targets of a given key. -/
def connsTo (l : List (Src × Target)) (T : Src) : List Conn := (l.filter (fun p => decide (p.1 = T))).flatMap (·.2.conns)

/-- What the matrix holds for a target. -/
def view (b : Builder Src) (T : Src) : List (Option Src × ℚ × Option Src × ℚ) := (connsTo b.tgts T).map (decode b)

/-- A connection of a region as it should be in the matrix. -/
def entry (c : Connection) : Option Src × ℚ × Option Src × ℚ :=
  (some (sourceKey c), c.depth, c.depthMod.map Src.other, c.vel)

/-! ## Default controllers -/

theorem upsert_new (p : Connection → Bool) (new : Connection) (f : Connection → Connection) : ∀ l : List Connection,
    (∀ c ∈ l, p c = false) → upsert p new f l = l ++ [f new]
  | [], _ => rfl
  | x :: l, h => by
    have hx := h x (by simp)
    rw [upsert, if_neg (by simp [hx]), upsert_new p new f l (fun c hc => h c (by simp [hc]))]
    rfl

theorem ccSaid_envelope (r : Region) (n : Nat) (T : ModKey) : ccSaid r.id n T (r.ops ++ [envelope r]) = ccSaid r.id n T r.ops := by
  have : ∃ s t v, envelope r = .depth s t v := by
    unfold envelope
    cases r.flexAmpEG <;> exact ⟨_, _, _, rfl⟩
  obtain ⟨s, t, v, h⟩ := this
  rw [h]
  unfold ccSaid
  simp [lastOf_snoc, names, onGiven, curveGiven, smoothGiven, stepGiven]

theorem parsed_cc (r : Region) (n : Nat) (T : ModKey) (hn : n < 512) : (parsed r).filter (fromCC n T) = ccSaid r.id n T r.ops := by
  unfold parsed
  rw [controller_connections r.id n T hn, ccSaid_envelope]

theorem parsed_mem_cc (r : Region) (c : Connection) (hc : c ∈ parsed r) (k : Controller.Key) (hk : c.source = .ctl k) :
    ∃ p, Op.cc k.cc c.target p ∈ r.ops := by
  have hlt := far_controllers r.id (r.ops ++ [envelope r]) c hc k hk
  have hm : c ∈ (parsed r).filter (fromCC k.cc c.target) := by
    rw [List.mem_filter]
    exact ⟨hc, by simp [fromCC, hk]⟩
  rw [parsed_cc r _ _ hlt] at hm
  unfold ccSaid at hm
  split at hm
  · next h =>
    obtain ⟨op, ho, hp⟩ := List.any_eq_true.1 h
    cases op with
    | cc a t p =>
      simp only [names, decide_eq_true_eq] at hp
      obtain ⟨rfl, rfl⟩ := hp
      exact ⟨p, ho⟩
    | _ => simp [names] at hp
  · simp at hm

/-- The set of the controllers in use is what it should be. -/
theorem usedCCs_iff (rs : List Region) (n : Nat) (hn : n < 512) (hv : ofVoice n = false) : usedCCs rs n = true ↔ Uses rs n := by
  unfold usedCCs Uses
  rw [List.any_eq_true]
  refine exists_congr fun r => and_congr_right fun _ => ?_
  rw [Bool.or_eq_true, List.any_eq_true]
  refine or_congr Iff.rfl ⟨?_, ?_⟩
  · rintro ⟨c, hc, hu⟩
    unfold usesCC at hu
    cases hs : c.source with
    | other k => simp [hs] at hu
    | ctl k =>
      simp only [hs, Bool.and_eq_true, beq_iff_eq] at hu
      obtain ⟨p, hp⟩ := parsed_mem_cc r c hc k hs
      rw [hu.2] at hp
      exact ⟨_, p, hp⟩
  · rintro ⟨T, p, hp⟩
    have h := parsed_cc r n T hn
    have hany : r.ops.any (names n T) = true := List.any_eq_true.2 ⟨_, hp, by simp [names]⟩
    unfold ccSaid at h
    rw [if_pos hany, hv] at h
    have hm := List.mem_singleton_self (Connection.mk (.ctl ⟨none, n, (lastOf (curveGiven n T) r.ops).getD 0,
      (lastOf (smoothGiven n T) r.ops).getD 0, (lastOf (stepGiven n T) r.ops).getD 0⟩) T ((lastOf (onGiven n T) r.ops).getD 0) none 0)
    refine ⟨_, (List.mem_filter.1 (h ▸ hm)).1, ?_⟩
    simp [usesCC]

/-- The default controllers which are added. -/
def extra (used : Nat → Bool) (id : Nat) : List Connection :=
  (if used 7 then [] else [⟨.ctl ⟨none, 7, 4, 10, 0⟩, ⟨.Amplitude, some id, 0, 0⟩, 1, none, 0⟩]) ++
  (if used 10 then [] else [⟨.ctl ⟨none, 10, 1, 10, 0⟩, ⟨.Pan, some id, 0, 0⟩, 1, none, 0⟩]) ++
  (if used 11 then [] else [⟨.ctl ⟨none, 11, 4, 10, 0⟩, ⟨.Amplitude, some id, 0, 0⟩, 1, none, 0⟩])

theorem addDefault_eq (used : Nat → Bool) (cc curve : Nat) (t : ModKey) (l : List Connection)
    (h : used cc = false → ∀ c ∈ l, ∀ k, c.source = .ctl k → k.cc ≠ cc) :
    addDefault used cc curve t l = l ++ (if used cc then [] else [⟨.ctl ⟨none, cc, curve, 10, 0⟩, t, 1, none, 0⟩]) := by
  unfold addDefault
  cases hu : used cc with
  | true => simp
  | false =>
    simp only [Bool.false_eq_true, if_false]
    refine (upsert_new _ _ _ l (fun c hc => ?_)).trans rfl
    simp only [sameKeys, decide_eq_false_iff_not, not_and]
    intro hs _
    exact h hu c hc _ hs rfl

theorem final_eq (rs : List Region) (r : Region) (hr : r ∈ rs) : final rs r = parsed r ++ extra (usedCCs rs) r.id := by
  have key : ∀ n, n < 512 → ofVoice n = false → usedCCs rs n = false → ∀ c ∈ parsed r, ∀ k, c.source = .ctl k → k.cc ≠ n := by
    intro n hn hv hu c hc k hk e
    obtain ⟨p, hp⟩ := parsed_mem_cc r c hc k hk
    rw [e] at hp
    have := (usedCCs_iff rs n hn hv).2 ⟨r, hr, Or.inr ⟨_, p, hp⟩⟩
    rw [hu] at this
    simp at this
  unfold final addDefaults
  rw [addDefault_eq (usedCCs rs) 7 4 _ (parsed r) (key 7 (by decide) (by decide))]
  rw [addDefault_eq (usedCCs rs) 10 1 _ _ (by
    intro hu c hc k hk
    rcases List.mem_append.1 hc with hc | hc
    · exact key 10 (by decide) (by decide) hu c hc k hk
    · split at hc
      · simp at hc
      · simp only [List.mem_singleton] at hc
        subst hc
        obtain rfl := Src.ctl.inj hk
        simp)]
  rw [addDefault_eq (usedCCs rs) 11 4 _ _ (by
    intro hu c hc k hk
    rcases List.mem_append.1 hc with hc | hc
    · rcases List.mem_append.1 hc with hc | hc
      · exact key 11 (by decide) (by decide) hu c hc k hk
      · split at hc
        · simp at hc
        · simp only [List.mem_singleton] at hc
          subst hc
          obtain rfl := Src.ctl.inj hk
          simp
    · split at hc
      · simp at hc
      · simp only [List.mem_singleton] at hc
        subst hc
        obtain rfl := Src.ctl.inj hk
        simp)]
  unfold extra
  simp only [List.append_assoc]

/-- C141: **the default controllers**. In every instrument and for every region: a controller which some region uses, and
every controller other than 7, 10 and 11, is connected exactly as the opcodes of the region tell. Controllers 7, 10 and 11,
when no region uses them, are connected to the amplitude, the pan and the amplitude with depth 1 and a smoothing of 10, and to
nothing else. -/
theorem default_controllers (rs : List Region) (r : Region) (hr : r ∈ rs) (n : Nat) (hn : n < 512) (T : ModKey) :
    ((Uses rs n ∨ byDefault r.id n = none) → (final rs r).filter (fromCC n T) = ccSaid r.id n T r.ops) ∧
    (¬ Uses rs n → ∀ D curve, byDefault r.id n = some (D, curve) →
      (final rs r).filter (fromCC n T) = if T = D then [⟨.ctl ⟨none, n, curve, 10, 0⟩, D, 1, none, 0⟩] else []) := by
  have h7 := usedCCs_iff rs 7 (by decide) (by decide)
  have h10 := usedCCs_iff rs 10 (by decide) (by decide)
  have h11 := usedCCs_iff rs 11 (by decide) (by decide)
  rw [final_eq rs r hr, List.filter_append, parsed_cc r n T hn]
  constructor
  · intro h
    have : (extra (usedCCs rs) r.id).filter (fromCC n T) = [] := by
      rw [List.filter_eq_nil_iff]
      intro c hc
      have hx : ∀ m D q, (m = 7 ∨ m = 10 ∨ m = 11) → usedCCs rs m = false → ¬ (fromCC n T ⟨.ctl ⟨none, m, q, 10, 0⟩, D, 1, none, 0⟩) = true := by
        intro m D q hm hu hf
        simp only [fromCC, decide_eq_true_eq] at hf
        obtain ⟨rfl, _⟩ := hf
        rcases h with h | h
        · rcases hm with rfl | rfl | rfl
          · rw [h7.2 h] at hu; simp at hu
          · rw [h10.2 h] at hu; simp at hu
          · rw [h11.2 h] at hu; simp at hu
        · rcases hm with rfl | rfl | rfl <;> simp [byDefault] at h
      unfold extra at hc
      simp only [List.mem_append] at hc
      rcases hc with (hc | hc) | hc
      · split at hc
        · simp at hc
        · next hu => simp only [List.mem_singleton] at hc; subst hc; exact hx 7 _ _ (by simp) (by simpa using hu)
      · split at hc
        · simp at hc
        · next hu => simp only [List.mem_singleton] at hc; subst hc; exact hx 10 _ _ (by simp) (by simpa using hu)
      · split at hc
        · simp at hc
        · next hu => simp only [List.mem_singleton] at hc; subst hc; exact hx 11 _ _ (by simp) (by simpa using hu)
    rw [this, List.append_nil]
  · intro h D curve hd
    have hnone : ccSaid r.id n T r.ops = [] := by
      unfold ccSaid
      rw [if_neg]
      intro hany
      obtain ⟨op, ho, hp⟩ := List.any_eq_true.1 hany
      cases op with
      | cc a t p =>
        simp only [names, decide_eq_true_eq] at hp
        obtain ⟨rfl, rfl⟩ := hp
        exact h ⟨r, hr, Or.inr ⟨_, _, ho⟩⟩
      | _ => simp [names] at hp
    rw [hnone, List.nil_append]
    unfold extra
    simp only [List.filter_append]
    have hc : n = 7 ∨ n = 10 ∨ n = 11 := by
      unfold byDefault at hd
      split at hd <;> simp_all
    have none_else : ∀ m q E (u : Bool), m ≠ n → (if u then [] else [Connection.mk (.ctl ⟨none, m, q, 10, 0⟩) E 1 none 0]).filter (fromCC n T) = [] := by
      intro m q E u hm
      cases u <;> simp [fromCC, hm]
    have this_one : ∀ (u : Bool), u = false →
        (if u then [] else [Connection.mk (.ctl ⟨none, n, curve, 10, 0⟩) D 1 none 0]).filter (fromCC n T) =
          if T = D then [⟨.ctl ⟨none, n, curve, 10, 0⟩, D, 1, none, 0⟩] else [] := by
      intro u hu
      subst hu
      by_cases e : T = D
      · simp [fromCC, e]
      · have : ¬ D = T := fun x => e x.symm
        simp [fromCC, e, this]
    rcases hc with rfl | rfl | rfl
    · have hu : usedCCs rs 7 = false := by
        cases hh : usedCCs rs 7 with
        | false => rfl
        | true => exact absurd (h7.1 hh) h
      simp only [byDefault, Option.some.injEq, Prod.mk.injEq] at hd
      obtain ⟨rfl, rfl⟩ := hd
      rw [this_one _ hu, none_else 10 _ _ _ (by decide), none_else 11 _ _ _ (by decide), List.append_nil, List.append_nil]
    · have hu : usedCCs rs 10 = false := by
        cases hh : usedCCs rs 10 with
        | false => rfl
        | true => exact absurd (h10.1 hh) h
      simp only [byDefault, Option.some.injEq, Prod.mk.injEq] at hd
      obtain ⟨rfl, rfl⟩ := hd
      rw [this_one _ hu, none_else 7 _ _ _ (by decide), none_else 11 _ _ _ (by decide), List.append_nil, List.nil_append]
    · have hu : usedCCs rs 11 = false := by
        cases hh : usedCCs rs 11 with
        | false => rfl
        | true => exact absurd (h11.1 hh) h
      simp only [byDefault, Option.some.injEq, Prod.mk.injEq] at hd
      obtain ⟨rfl, rfl⟩ := hd
      rw [this_one _ hu, none_else 7 _ _ _ (by decide), none_else 10 _ _ _ (by decide), List.nil_append, List.nil_append]

theorem linkSaid_other (r : Region) (s T : ModKey) : (final rs r).filter (fromOther s T) = (parsed r).filter (fromOther s T) ∨ r ∉ rs := by
  by_cases hr : r ∈ rs
  · left
    rw [final_eq rs r hr, List.filter_append]
    have : (extra (usedCCs rs) r.id).filter (fromOther s T) = [] := by
      unfold extra
      simp only [List.filter_append, List.append_eq_nil_iff]
      refine ⟨⟨?_, ?_⟩, ?_⟩ <;> (split <;> simp [fromOther])
    rw [this, List.append_nil]
  · exact Or.inr hr

/-- C141: the other modulators of a region of an instrument are connected exactly as its opcodes tell, and the amplitude
envelope (the usual one or the flexible one which is chosen) with depth 1 to the amplitude of the note. -/
theorem instrument_modulators (rs : List Region) (r : Region) (hr : r ∈ rs) (s T : ModKey) :
    (final rs r).filter (fromOther s T) = linkSaid s T (r.ops ++ [.depth
      (match r.flexAmpEG with
        | none => ⟨.AmpEG, some r.id, 0, 0⟩
        | some n => ⟨.Envelope, some r.id, n, 0⟩) ⟨.MasterAmplitude, some r.id, 0, 0⟩ 1]) := by
  rcases linkSaid_other (rs := rs) r s T with h | h
  · rw [h]
    unfold parsed
    rw [modulator_connections]
    unfold envelope
    cases r.flexAmpEG <;> rfl
  · exact absurd hr h

end Verif.Connections
