import Verif.Connections.Model
import Mathlib.Data.List.Induction

/-!
C141: what modulates what. The connections of a region are exactly what its opcodes say, read from the opcodes alone: one for
each controller and parameter named, with the depth, curve, smoothing and step given last; one for each pair of another
modulator and a parameter; the controllers of volume, pan and expression are connected exactly when the instrument does not
use them; and the modulation matrix holds these connections and no others.
-/
namespace Verif.Connections
open Verif.ModMatrix (ModKey ModId Builder)

/-! ## Specification -/

/-- The value given last. -/
def lastOf {A : Type} (f : Op → Option A) (ops : List Op) : Option A := (ops.filterMap f).getLast?

/-- The opcode speaks of the controller `n` acting on the parameter `T`. -/
def names (n : Nat) (T : ModKey) : Op → Bool
  | .cc c t _ => decide (c = n ∧ t = T)
  | _ => false

/-- `…_onccN`. -/
def onGiven (n : Nat) (T : ModKey) : Op → Option ℚ
  | .cc c t (.on v) => if c = n ∧ t = T then some v else none
  | _ => none

/-- `…_curveccN`. -/
def curveGiven (n : Nat) (T : ModKey) : Op → Option Nat
  | .cc c t (.curve v) => if c = n ∧ t = T then some v else none
  | _ => none

/-- `…_smoothccN`. -/
def smoothGiven (n : Nat) (T : ModKey) : Op → Option Nat
  | .cc c t (.smooth v) => if c = n ∧ t = T then some v else none
  | _ => none

/-- `…_stepccN`. -/
def stepGiven (n : Nat) (T : ModKey) : Op → Option ℚ
  | .cc c t (.step v) => if c = n ∧ t = T then some v else none
  | _ => none

/-- The controllers which have a value for each voice: 131 to 137, 140 and 141. -/
def ofVoice (n : Nat) : Bool := decide ((131 ≤ n ∧ n ≤ 137) ∨ n = 140 ∨ n = 141)

/-- What the opcodes say of the controller `n` acting on the parameter `T`. -/
def ccSaid (region n : Nat) (T : ModKey) (ops : List Op) : List Connection :=
  if ops.any (names n T) then
    [{ source := .ctl ⟨if ofVoice n then some region else none, n, (lastOf (curveGiven n T) ops).getD 0,
        (lastOf (smoothGiven n T) ops).getD 0, (lastOf (stepGiven n T) ops).getD 0⟩
       target := T
       depth := (lastOf (onGiven n T) ops).getD 0 }]
  else []

/-- The opcode speaks of the modulator `s` acting on the parameter `T`. -/
def links (s T : ModKey) : Op → Bool
  | .cc _ _ _ => false
  | .depth a t _ => decide (a = s ∧ t = T)
  | .depthMod a t _ => decide (a = s ∧ t = T)
  | .vel a t _ => decide (a = s ∧ t = T)
  | .make a t => decide (a = s ∧ t = T)

/-- Its depth. -/
def depthGiven (s T : ModKey) : Op → Option ℚ
  | .depth a t v => if a = s ∧ t = T then some v else none
  | _ => none

/-- What modulates its depth. -/
def depthModGiven (s T : ModKey) : Op → Option ModKey
  | .depthMod a t v => if a = s ∧ t = T then some v else none
  | _ => none

/-- How its depth depends on the velocity. -/
def velGiven (s T : ModKey) : Op → Option ℚ
  | .vel a t v => if a = s ∧ t = T then some v else none
  | _ => none

/-- What the opcodes say of the modulator `s` acting on the parameter `T`. -/
def linkSaid (s T : ModKey) (ops : List Op) : List Connection :=
  if ops.any (links s T) then
    [{ source := .other s
       target := T
       depth := (lastOf (depthGiven s T) ops).getD 0
       depthMod := lastOf (depthModGiven s T) ops
       vel := (lastOf (velGiven s T) ops).getD 0 }]
  else []

/-- The connection is from the controller `n` to the parameter `T`. -/
def fromCC (n : Nat) (T : ModKey) (c : Connection) : Bool :=
  match c.source with
  | .ctl k => decide (k.cc = n ∧ c.target = T)
  | .other _ => false

/-- The connection is from the modulator `s` to the parameter `T`. -/
def fromOther (s T : ModKey) (c : Connection) : Bool := decide (c.source = .other s ∧ c.target = T)

/-! ## Lemmas -/

theorem ofVoice_eq (n : Nat) : Controller.isPerVoice n = ofVoice n := by
  unfold Controller.isPerVoice ofVoice
  apply Bool.eq_iff_iff.2
  simp
  omega

theorem lastOf_snoc {A : Type} (f : Op → Option A) (ops : List Op) (op : Op) :
    lastOf f (ops ++ [op]) = match f op with
      | some v => some v
      | none => lastOf f ops := by
  unfold lastOf
  rw [List.filterMap_append]
  cases h : f op with
  | none => simp [h]
  | some v => simp [h]

/-- A change of the connections of one class, as seen by that class. -/
theorem upsert_same (p q : Connection → Bool) (new : Connection) (f : Connection → Connection) (hn : q (f new) = true)
    (hf : ∀ c, p c = true → q (f c) = true) : ∀ l : List Connection, (∀ c ∈ l, q c = p c) →
      (l.filter q = [] → (upsert p new f l).filter q = [f new]) ∧
      (∀ c, l.filter q = [c] → (upsert p new f l).filter q = [f c])
  | [], _ => ⟨fun _ => by simp [upsert, hn], fun c h => by simp at h⟩
  | x :: l, h => by
    have hx := h x (by simp)
    obtain ⟨h₁, h₂⟩ := upsert_same p q new f hn hf l (fun c hc => h c (by simp [hc]))
    by_cases hp : p x = true
    · refine ⟨fun e => ?_, fun c e => ?_⟩
      · rw [List.filter_cons, hx, if_pos hp] at e; simp at e
      · rw [List.filter_cons, hx, if_pos hp] at e
        simp only [List.cons.injEq] at e
        obtain ⟨rfl, e⟩ := e
        simp [upsert, hp, hf _ hp, e]
    · have hq : q x ≠ true := by rw [hx]; exact hp
      refine ⟨fun e => ?_, fun c e => ?_⟩
      · rw [List.filter_cons, if_neg hq] at e
        rw [upsert, if_neg hp, List.filter_cons, if_neg hq]
        exact h₁ e
      · rw [List.filter_cons, if_neg hq] at e
        rw [upsert, if_neg hp, List.filter_cons, if_neg hq]
        exact h₂ c e

/-- As seen by another class. -/
theorem upsert_apart (p q : Connection → Bool) (new : Connection) (f : Connection → Connection) (hn : q (f new) = false)
    (hf : ∀ c, p c = true → q c = false ∧ q (f c) = false) : ∀ l : List Connection, (upsert p new f l).filter q = l.filter q
  | [] => by simp [upsert, hn]
  | x :: l => by
    by_cases hp : p x = true
    · obtain ⟨a, b⟩ := hf x hp
      simp [upsert, hp, a, b]
    · rw [upsert, if_neg hp, List.filter_cons, List.filter_cons, upsert_apart p q new f hn hf l]

/-- What holds of every element after a change. -/
theorem upsert_all (P : Connection → Prop) (p : Connection → Bool) (new : Connection) (f : Connection → Connection) (hn : P (f new))
    (hf : ∀ c, p c = true → P c → P (f c)) : ∀ l : List Connection, (∀ c ∈ l, P c) → ∀ c ∈ upsert p new f l, P c
  | [], _, c, hc => by
    simp only [upsert, List.mem_singleton] at hc
    subst hc; exact hn
  | x :: l, h, c, hc => by
    rw [upsert] at hc
    split at hc
    · next hp =>
      rcases List.mem_cons.1 hc with rfl | hc
      · exact hf x hp (h x (by simp))
      · exact h c (by simp [hc])
    · rcases List.mem_cons.1 hc with rfl | hc
      · exact h c (by simp)
      · exact upsert_all P p new f hn hf l (fun d hd => h d (by simp [hd])) c hc

/-- The keys of controllers: of the region when the controller has a value for each voice, below 512. -/
def Good (region : Nat) (c : Connection) : Prop :=
  ∀ k, c.source = .ctl k → k.region = (if ofVoice k.cc then some region else none) ∧ k.cc < 512 ∧ c.depthMod = none ∧ c.vel = 0

theorem setParam_source (region : Nat) (p : Param) (c : Connection) (k : Controller.Key) (h : c.source = .ctl k) :
    ∃ k', (setParam region p c).source = .ctl k' ∧ k'.cc = k.cc ∧ k'.region = (if ofVoice k.cc then some region else none) ∧
      (setParam region p c).target = c.target ∧ (setParam region p c).depthMod = c.depthMod ∧ (setParam region p c).vel = c.vel := by
  unfold setParam
  rw [h]
  cases p <;> exact ⟨_, rfl, rfl, by simp [Controller.makeKey, ofVoice_eq], rfl, rfl, rfl⟩

theorem sameCC_inv {region n : Nat} {T : ModKey} {c : Connection} (h : sameCC region n T c = true) :
    ∃ k, c.source = .ctl k ∧ k.cc = n ∧ c.target = T := by
  unfold sameCC at h
  cases hs : c.source with
  | other k => rw [hs] at h; simp at h
  | ctl k =>
    rw [hs] at h
    refine ⟨k, rfl, ?_⟩
    simp only at h
    split at h <;> simp at h <;> exact ⟨h.2.1, h.2.2⟩

theorem step_good (region : Nat) (l : List Connection) (hl : ∀ c ∈ l, Good region c) (op : Op) :
    ∀ c ∈ step region l op, Good region c := by
  have plain : ∀ (s T : ModKey) (f : Connection → Connection), (∀ c, (f c).source = c.source) →
      ∀ c ∈ onConnection (.other s) T f l, Good region c := by
    intro s T f hf
    refine upsert_all (Good region) _ _ _ ?_ ?_ l hl
    · intro k hk
      rw [hf] at hk
      simp at hk
    · intro c hp _ k hk
      rw [hf] at hk
      simp only [sameKeys, decide_eq_true_eq] at hp
      rw [hp.1] at hk
      simp at hk
  cases op with
  | cc n t p =>
    show ∀ c ∈ processGenericCc region n t p l, Good region c
    unfold processGenericCc
    split
    · exact hl
    · next hn =>
      refine upsert_all (Good region) _ _ _ ?_ ?_ l hl
      · intro k hk
        obtain ⟨k', a, b, c, d, e, g⟩ := setParam_source region p { source := .ctl ⟨none, n, 0, 0, 0⟩, target := t } _ rfl
        rw [a] at hk
        obtain rfl := Src.ctl.inj hk
        refine ⟨by rw [b]; exact c, by rw [b]; simp only; omega, e, g⟩
      · intro c hp hc k hk
        obtain ⟨k₀, h₀, h₁, h₂⟩ := sameCC_inv hp
        obtain ⟨k', a, b, c', d, e, g⟩ := setParam_source region p c k₀ h₀
        rw [a] at hk
        obtain rfl := Src.ctl.inj hk
        obtain ⟨_, y, z, w⟩ := hc k₀ h₀
        exact ⟨by rw [b]; exact c', by rw [b]; exact y, e.trans z, g.trans w⟩
  | depth s t v => exact plain s t _ (fun _ => rfl)
  | depthMod s t k => exact plain s t _ (fun _ => rfl)
  | vel s t v => exact plain s t _ (fun _ => rfl)
  | make s t => exact plain s t _ (fun _ => rfl)

theorem good_after (region : Nat) (ops : List Op) : ∀ l : List Connection, (∀ c ∈ l, Good region c) →
    ∀ c ∈ ops.foldl (step region) l, Good region c := by
  induction ops with
  | nil => exact fun l h => h
  | cons op ops ih => exact fun l h => ih _ (step_good region l h op)

theorem sameCC_fromCC {region n : Nat} {T : ModKey} {c : Connection} (hc : Good region c) :
    fromCC n T c = sameCC region n T c := by
  unfold fromCC sameCC
  cases hs : c.source with
  | other k => rfl
  | ctl k =>
    obtain ⟨a, _⟩ := hc k hs
    simp only [ofVoice_eq]
    apply Bool.eq_iff_iff.2
    by_cases hv : ofVoice n = true
    · simp only [hv, if_true, decide_eq_true_eq]
      refine ⟨fun h => ⟨?_, h⟩, fun h => h.2⟩
      rw [a, h.1, hv]; rfl
    · simp only [hv, decide_eq_true_eq]
      simp only [decide_eq_true_eq, Bool.false_eq_true, if_false]
      refine ⟨fun h => ⟨?_, h⟩, fun h => h.2⟩
      rw [a, h.1]; simp [hv]

theorem other_keeps_cc (n : Nat) (T : ModKey) (s t : ModKey) (f : Connection → Connection) (hf : ∀ c, (f c).source = c.source)
    (l : List Connection) : (onConnection (.other s) t f l).filter (fromCC n T) = l.filter (fromCC n T) := by
  refine upsert_apart _ _ _ _ ?_ ?_ l
  · simp [fromCC, hf]
  · intro c hp
    simp only [sameKeys, decide_eq_true_eq] at hp
    refine ⟨?_, ?_⟩
    · simp [fromCC, hp.1]
    · simp [fromCC, hf, hp.1]

theorem cc_other_class (region n c : Nat) (T t : ModKey) (p : Param) (h : ¬ (c = n ∧ t = T)) (l : List Connection) :
    (processGenericCc region c t p l).filter (fromCC n T) = l.filter (fromCC n T) := by
  unfold processGenericCc
  split
  · rfl
  · refine upsert_apart _ _ _ _ ?_ ?_ l
    · obtain ⟨k', a, b, _, d, _⟩ := setParam_source region p { source := .ctl ⟨none, c, 0, 0, 0⟩, target := t } _ rfl
      simp only [fromCC, a, b, d]
      simpa using h
    · intro x hx
      obtain ⟨k, h₀, h₁, h₂⟩ := sameCC_inv hx
      obtain ⟨k', a, b, _, d, _⟩ := setParam_source region p x k h₀
      refine ⟨?_, ?_⟩
      · simp only [fromCC, h₀, h₁, h₂]; simpa using h
      · simp only [fromCC, a, b, d, h₁, h₂]; simpa using h

/-- C141: **the connections from a controller are those the opcodes tell**. For every list of opcodes of a region, every
controller below 512 and every parameter: if an opcode names the two, there is exactly one connection between them, whose
depth, curve, smoothing and step are those given last (0 where none is given); otherwise there is none. -/
theorem controller_connections (region n : Nat) (T : ModKey) (hn : n < 512) (ops : List Op) :
    (ops.foldl (step region) []).filter (fromCC n T) = ccSaid region n T ops := by
  induction ops using List.reverseRecOn with
  | nil => rfl
  | append_singleton ops op ih =>
    rw [List.foldl_append]
    have hgood : ∀ c ∈ ops.foldl (step region) [], Good region c := good_after region ops [] (by simp)
    generalize hL : ops.foldl (step region) [] = L at ih hgood
    simp only [List.foldl_cons, List.foldl_nil]
    have skip : names n T op = false → onGiven n T op = none → curveGiven n T op = none → smoothGiven n T op = none →
        stepGiven n T op = none → ccSaid region n T (ops ++ [op]) = ccSaid region n T ops := by
      intro a b c d e
      unfold ccSaid
      simp [lastOf_snoc, a, b, c, d, e]
    cases op with
    | depth s t v =>
      rw [skip rfl rfl rfl rfl rfl, ← ih]
      exact other_keeps_cc n T s t (fun c => { c with depth := v }) (fun _ => rfl) L
    | depthMod s t v =>
      rw [skip rfl rfl rfl rfl rfl, ← ih]
      exact other_keeps_cc n T s t (fun c => { c with depthMod := some v }) (fun _ => rfl) L
    | vel s t v =>
      rw [skip rfl rfl rfl rfl rfl, ← ih]
      exact other_keeps_cc n T s t (fun c => { c with vel := v }) (fun _ => rfl) L
    | make s t => rw [skip rfl rfl rfl rfl rfl, ← ih]; exact other_keeps_cc n T s t _ (fun _ => rfl) L
    | cc c t p =>
      by_cases h : c = n ∧ t = T
      · obtain ⟨rfl, rfl⟩ := h
        show (processGenericCc region c t p L).filter (fromCC c t) = _
        unfold processGenericCc
        rw [if_neg (by omega)]
        have hq : fromCC c t (setParam region p { source := .ctl ⟨none, c, 0, 0, 0⟩, target := t }) = true := by
          obtain ⟨k', a, b, _, d, _⟩ := setParam_source region p { source := .ctl ⟨none, c, 0, 0, 0⟩, target := t } _ rfl
          simp [fromCC, a, b, d]
        have hf : ∀ x, sameCC region c t x = true → fromCC c t (setParam region p x) = true := by
          intro x hx
          obtain ⟨k, h₀, h₁, h₂⟩ := sameCC_inv hx
          obtain ⟨k', a, b, _, d, _⟩ := setParam_source region p x k h₀
          simp [fromCC, a, b, d, h₁, h₂]
        obtain ⟨e₁, e₂⟩ := upsert_same (sameCC region c t) (fromCC c t) _ (setParam region p) hq hf L
          (fun x hx => sameCC_fromCC (hgood x hx))
        by_cases hany : ops.any (names c t) = true
        · have hsaid : ccSaid region c t ops = [⟨.ctl ⟨if ofVoice c then some region else none, c,
              (lastOf (curveGiven c t) ops).getD 0, (lastOf (smoothGiven c t) ops).getD 0, (lastOf (stepGiven c t) ops).getD 0⟩,
              t, (lastOf (onGiven c t) ops).getD 0, none, 0⟩] := by
            unfold ccSaid; rw [if_pos hany]
          rw [hsaid] at ih
          rw [e₂ _ ih]
          unfold ccSaid
          have : (ops ++ [Op.cc c t p]).any (names c t) = true := by simp [names]
          rw [if_pos this]
          cases p <;> simp [setParam, lastOf_snoc, onGiven, curveGiven, smoothGiven, stepGiven, Controller.makeKey, ofVoice_eq]
        · have hsaid : ccSaid region c t ops = [] := by unfold ccSaid; rw [if_neg hany]
          rw [hsaid] at ih
          rw [e₁ ih]
          have none_of : ∀ {A : Type} (f : Op → Option A), (∀ op, names c t op = false → f op = none) → lastOf f ops = none := by
            intro A f hf
            unfold lastOf
            have : ops.filterMap f = [] := by
              rw [List.filterMap_eq_nil_iff]
              intro x hx
              refine hf x ?_
              simp only [List.any_eq_true, not_exists, not_and] at hany
              simpa using hany x hx
            rw [this]; rfl
          have h₁ := none_of (onGiven c t) (by
            intro op h; cases op with
            | cc a b q => cases q <;> simp_all [names, onGiven]
            | _ => rfl)
          have h₂ := none_of (curveGiven c t) (by
            intro op h; cases op with
            | cc a b q => cases q <;> simp_all [names, curveGiven]
            | _ => rfl)
          have h₃ := none_of (smoothGiven c t) (by
            intro op h; cases op with
            | cc a b q => cases q <;> simp_all [names, smoothGiven]
            | _ => rfl)
          have h₄ := none_of (stepGiven c t) (by
            intro op h; cases op with
            | cc a b q => cases q <;> simp_all [names, stepGiven]
            | _ => rfl)
          unfold ccSaid
          have : (ops ++ [Op.cc c t p]).any (names c t) = true := by simp [names]
          rw [if_pos this]
          cases p <;> simp [setParam, lastOf_snoc, onGiven, curveGiven, smoothGiven, stepGiven, Controller.makeKey, ofVoice_eq,
            h₁, h₂, h₃, h₄]
      · rw [skip (by simpa [names] using h) (by cases p <;> simp [onGiven, h]) (by cases p <;> simp [curveGiven, h])
          (by cases p <;> simp [smoothGiven, h]) (by cases p <;> simp [stepGiven, h]), ← ih]
        exact cc_other_class region n c T t p h L

/-- C141: a controller from 512 on is not connected to anything. -/
theorem far_controllers (region : Nat) (ops : List Op) : ∀ c ∈ ops.foldl (step region) [], ∀ k, c.source = .ctl k → k.cc < 512 :=
  fun c hc k hk => (good_after region ops [] (by simp) c hc k hk).2.1

/-! ## Other modulators -/

theorem cc_keeps_other (region c : Nat) (t : ModKey) (p : Param) (s T : ModKey) (l : List Connection) :
    (processGenericCc region c t p l).filter (fromOther s T) = l.filter (fromOther s T) := by
  unfold processGenericCc
  split
  · rfl
  · refine upsert_apart _ _ _ _ ?_ ?_ l
    · obtain ⟨k', a, _⟩ := setParam_source region p { source := .ctl ⟨none, c, 0, 0, 0⟩, target := t } _ rfl
      simp [fromOther, a]
    · intro x hx
      obtain ⟨k, h₀, _⟩ := sameCC_inv hx
      obtain ⟨k', a, _⟩ := setParam_source region p x k h₀
      simp [fromOther, a, h₀]

theorem other_step (a t s T : ModKey) (f : Connection → Connection) (hs : ∀ c, (f c).source = c.source)
    (ht : ∀ c, (f c).target = c.target) (l : List Connection) :
    (¬ (a = s ∧ t = T) → (onConnection (.other a) t f l).filter (fromOther s T) = l.filter (fromOther s T)) ∧
    (a = s ∧ t = T → (l.filter (fromOther s T) = [] →
        (onConnection (.other a) t f l).filter (fromOther s T) = [f { source := .other s, target := T }]) ∧
      ∀ c, l.filter (fromOther s T) = [c] → (onConnection (.other a) t f l).filter (fromOther s T) = [f c]) := by
  constructor
  · intro h
    refine upsert_apart _ _ _ _ ?_ ?_ l
    · simp only [fromOther, hs, ht, Src.other.injEq]; simpa using h
    · intro c hp
      simp only [sameKeys, decide_eq_true_eq] at hp
      simp only [fromOther, hs, ht, hp.1, hp.2, Src.other.injEq]
      simpa using h
  · rintro ⟨rfl, rfl⟩
    exact upsert_same _ _ _ _ (by simp [fromOther, hs, ht])
      (fun c hp => by simpa [fromOther, sameKeys, hs, ht] using hp) l (fun c _ => rfl)

/-- C141: **the connections from the other modulators are those the opcodes tell**. For every list of opcodes of a region,
every modulator (envelope, LFO or key and channel pressure) and every parameter: if an opcode links the two, there is
exactly one connection between them, with the depth, the modulation of the depth and the dependency on the velocity given
last; otherwise there is none. -/
theorem modulator_connections (region : Nat) (s T : ModKey) (ops : List Op) :
    (ops.foldl (step region) []).filter (fromOther s T) = linkSaid s T ops := by
  induction ops using List.reverseRecOn with
  | nil => rfl
  | append_singleton ops op ih =>
    rw [List.foldl_append]
    generalize hL : ops.foldl (step region) [] = L at ih
    simp only [List.foldl_cons, List.foldl_nil]
    have skip : links s T op = false → depthGiven s T op = none → depthModGiven s T op = none → velGiven s T op = none →
        linkSaid s T (ops ++ [op]) = linkSaid s T ops := by
      intro a b c d
      unfold linkSaid
      simp [lastOf_snoc, a, b, c, d]
    have none_of : ops.any (links s T) ≠ true → ∀ {A : Type} (f : Op → Option A),
        (∀ op, links s T op = false → f op = none) → lastOf f ops = none := by
      intro hany A f hf
      unfold lastOf
      have : ops.filterMap f = [] := by
        rw [List.filterMap_eq_nil_iff]
        intro x hx
        refine hf x ?_
        cases hl : links s T x with
        | false => rfl
        | true => exact absurd (List.any_eq_true.2 ⟨x, hx, hl⟩) hany
      rw [this]; rfl
    have fresh : ops.any (links s T) ≠ true → lastOf (depthGiven s T) ops = none ∧ lastOf (depthModGiven s T) ops = none ∧
        lastOf (velGiven s T) ops = none := by
      intro h
      refine ⟨none_of h _ ?_, none_of h _ ?_, none_of h _ ?_⟩ <;>
        (intro op ho; cases op <;> simp_all [links, depthGiven, depthModGiven, velGiven])
    have said : ∀ (h : ops.any (links s T) = true), linkSaid s T ops = [⟨.other s, T, (lastOf (depthGiven s T) ops).getD 0,
        lastOf (depthModGiven s T) ops, (lastOf (velGiven s T) ops).getD 0⟩] := by
      intro h; unfold linkSaid; rw [if_pos h]
    have unsaid : ∀ (h : ops.any (links s T) ≠ true), linkSaid s T ops = [] := by
      intro h; unfold linkSaid; rw [if_neg h]
    cases op with
    | cc c t p => rw [skip rfl rfl rfl rfl, ← ih]; exact cc_keeps_other region c t p s T L
    | depth a t v =>
      obtain ⟨h₁, h₂⟩ := other_step a t s T (fun c => { c with depth := v }) (fun _ => rfl) (fun _ => rfl) L
      by_cases h : a = s ∧ t = T
      · obtain ⟨e₁, e₂⟩ := h₂ h
        obtain ⟨rfl, rfl⟩ := h
        have hx : (ops ++ [Op.depth a t v]).any (links a t) = true := by simp [links]
        unfold linkSaid
        rw [if_pos hx]
        by_cases hany : ops.any (links a t) = true
        · rw [said hany] at ih
          refine (e₂ _ ih).trans ?_
          simp [lastOf_snoc, depthGiven, depthModGiven, velGiven]
        · rw [unsaid hany] at ih
          obtain ⟨f₁, f₂, f₃⟩ := fresh hany
          refine (e₁ ih).trans ?_
          simp [lastOf_snoc, depthGiven, depthModGiven, velGiven, f₁, f₂, f₃]
      · rw [skip (by simpa [links] using h) (by simp [depthGiven, h]) rfl rfl, ← ih]; exact h₁ h
    | depthMod a t v =>
      obtain ⟨h₁, h₂⟩ := other_step a t s T (fun c => { c with depthMod := some v }) (fun _ => rfl) (fun _ => rfl) L
      by_cases h : a = s ∧ t = T
      · obtain ⟨e₁, e₂⟩ := h₂ h
        obtain ⟨rfl, rfl⟩ := h
        have hx : (ops ++ [Op.depthMod a t v]).any (links a t) = true := by simp [links]
        unfold linkSaid
        rw [if_pos hx]
        by_cases hany : ops.any (links a t) = true
        · rw [said hany] at ih
          refine (e₂ _ ih).trans ?_
          simp [lastOf_snoc, depthGiven, depthModGiven, velGiven]
        · rw [unsaid hany] at ih
          obtain ⟨f₁, f₂, f₃⟩ := fresh hany
          refine (e₁ ih).trans ?_
          simp [lastOf_snoc, depthGiven, depthModGiven, velGiven, f₁, f₂, f₃]
      · rw [skip (by simpa [links] using h) rfl (by simp [depthModGiven, h]) rfl, ← ih]; exact h₁ h
    | vel a t v =>
      obtain ⟨h₁, h₂⟩ := other_step a t s T (fun c => { c with vel := v }) (fun _ => rfl) (fun _ => rfl) L
      by_cases h : a = s ∧ t = T
      · obtain ⟨e₁, e₂⟩ := h₂ h
        obtain ⟨rfl, rfl⟩ := h
        have hx : (ops ++ [Op.vel a t v]).any (links a t) = true := by simp [links]
        unfold linkSaid
        rw [if_pos hx]
        by_cases hany : ops.any (links a t) = true
        · rw [said hany] at ih
          refine (e₂ _ ih).trans ?_
          simp [lastOf_snoc, depthGiven, depthModGiven, velGiven]
        · rw [unsaid hany] at ih
          obtain ⟨f₁, f₂, f₃⟩ := fresh hany
          refine (e₁ ih).trans ?_
          simp [lastOf_snoc, depthGiven, depthModGiven, velGiven, f₁, f₂, f₃]
      · rw [skip (by simpa [links] using h) rfl rfl (by simp [velGiven, h]), ← ih]; exact h₁ h
    | make a t =>
      obtain ⟨h₁, h₂⟩ := other_step a t s T id (fun _ => rfl) (fun _ => rfl) L
      by_cases h : a = s ∧ t = T
      · obtain ⟨e₁, e₂⟩ := h₂ h
        obtain ⟨rfl, rfl⟩ := h
        have hx : (ops ++ [Op.make a t]).any (links a t) = true := by simp [links]
        unfold linkSaid
        rw [if_pos hx]
        by_cases hany : ops.any (links a t) = true
        · rw [said hany] at ih
          refine (e₂ _ ih).trans ?_
          simp [lastOf_snoc, depthGiven, depthModGiven, velGiven]
        · rw [unsaid hany] at ih
          obtain ⟨f₁, f₂, f₃⟩ := fresh hany
          refine (e₁ ih).trans ?_
          simp [lastOf_snoc, depthGiven, depthModGiven, velGiven, f₁, f₂, f₃]
      · rw [skip (by simpa [links] using h) rfl rfl rfl, ← ih]; exact h₁ h

end Verif.Connections
