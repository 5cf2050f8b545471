import Verif.Sequencer.Model
import Verif.Clients.Props
import Mathlib.Tactic.Linarith
import Mathlib.Tactic.FieldSimp
import Mathlib.Tactic.Ring
import Mathlib.Algebra.BigOperators.Intervals

/-!
Property C150: the tracks of a MIDI file are played together.
-/
namespace Verif.Sequencer

/-! ### Specification -/

/-- The events of a track up to its end, each with its place in ticks; `at_` is the place of the event before. -/
def ticksFrom (at_ : Nat) : List (Nat × Ev) → List (Nat × Ev)
  | [] => []
  | (d, e) :: r => if e = .endOfTrack then [] else (at_ + d, e) :: ticksFrom (at_ + d) r

/-- The end of the track, if it is there, is the last event. -/
def Ends : List (Nat × Ev) → Prop
  | [] => True
  | (_, e) :: r => if e = .endOfTrack then r = [] else Ends r

/-- Tempos are not zero. -/
def Tempos (r : List (Nat × Ev)) : Prop := ∀ d t, (d, Ev.tempo t) ∈ r → 0 < t

/-- Seconds per tick. -/
def secondsPerTick (d : Division) (tempo : Nat) : ℚ :=
  match d with
  | .second n => 1 / n
  | .quarter n => tempo / 1000000 / n

def Division.Valid : Division → Prop
  | .second n => 0 < n
  | .quarter n => 0 < n

/-- An event in its place: ticks, track, event. -/
abbrev Placed := Nat × Nat × Ev

/-- By ticks, and at the same tick by track. -/
def Before (a b : Placed) : Prop := a.1 < b.1 ∨ a.1 = b.1 ∧ a.2.1 ≤ b.2.1

/-- `all` has exactly the events of all tracks, those of each track in their order, and goes by ticks. -/
structure Merged (file : Nat → List (Nat × Ev)) (all : List Placed) : Prop where
  ordered : all.Pairwise Before
  each : ∀ i, (all.filter (fun x => x.2.1 = i)).map (fun x => (x.1, x.2.2)) = file i

/-- The times in seconds: every tick lasts as the tempo in force tells, which is the last one that came before. -/
def timed (d : Division) (tempo last : Nat) (now : ℚ) : List Placed → List (ℚ × Nat × Ev)
  | [] => []
  | x :: r =>
    (now + (x.1 - last : Nat) * secondsPerTick d tempo, x.2.1, x.2.2) ::
      timed d (match x.2.2 with | .tempo t => t | _ => tempo) x.1 (now + (x.1 - last : Nat) * secondsPerTick d tempo) r

/-! ### Lemmas -/

theorem deltaTime_eq (d : Division) (tempo : Nat) (x : ℚ) : deltaTime d tempo x = x * secondsPerTick d tempo := by
  cases d <;> simp only [deltaTime, secondsPerTick] <;> ring

theorem spt_pos {d : Division} (hd : d.Valid) {tempo : Nat} (ht : 0 < tempo) : 0 < secondsPerTick d tempo := by
  have : (0 : ℚ) < tempo := by exact_mod_cast ht
  cases d with
  | second n => have : (0 : ℚ) < n := by exact_mod_cast (show 0 < n from hd)
                simp only [secondsPerTick]; positivity
  | quarter n => have : (0 : ℚ) < n := by exact_mod_cast (show 0 < n from hd)
                 simp only [secondsPerTick]; positivity

theorem timeDelta_eq {d : Division} (hd : d.Valid) {tempo : Nat} (ht : 0 < tempo) (x : ℚ) :
    timeDelta d tempo (x * secondsPerTick d tempo) = x := by
  have : (0 : ℚ) < tempo := by exact_mod_cast ht
  cases d with
  | second n => have : (0 : ℚ) < n := by exact_mod_cast (show 0 < n from hd)
                simp only [secondsPerTick, timeDelta]; field_simp
  | quarter n => have : (0 : ℚ) < n := by exact_mod_cast (show 0 < n from hd)
                 simp only [secondsPerTick, timeDelta]; field_simp

theorem ticksFrom_ge (r : List (Nat × Ev)) : ∀ a, ∀ x ∈ ticksFrom a r, a ≤ x.1 := by
  induction r with
  | nil => intro a x hx; simp [ticksFrom] at hx
  | cons y r ih =>
    intro a x hx
    obtain ⟨d, e⟩ := y
    simp only [ticksFrom] at hx
    split at hx
    · simp at hx
    · rcases List.mem_cons.mp hx with rfl | hx
      · simp
      · exact le_trans (Nat.le_add_right a d) (ih _ x hx)

theorem ticksFrom_sorted (r : List (Nat × Ev)) : ∀ a, (ticksFrom a r).Pairwise (fun x y => x.1 ≤ y.1) := by
  induction r with
  | nil => intro a; simp [ticksFrom]
  | cons y r ih =>
    intro a
    obtain ⟨d, e⟩ := y
    simp only [ticksFrom]
    split
    · simp
    · exact List.pairwise_cons.mpr ⟨fun x hx => ticksFrom_ge r _ x hx, ih _⟩

/-- The track has the events `l` (absolute ticks) still to come, at tick `now`. -/
def Rel (now : Nat) (t : Track) (l : List (Nat × Ev)) : Prop :=
  Ends t.rest ∧ l.Pairwise (fun x y => x.1 ≤ y.1) ∧ (∀ x ∈ l, now ≤ x.1) ∧
    match t.next with
    | some p => ∃ k, l = (k, p.2) :: ticksFrom k t.rest ∧ p.1 = (k : ℚ) - now
    | none => l = ticksFrom now t.rest

/-- Also, the next event is fetched. -/
def Fetched (now : Nat) (t : Track) (l : List (Nat × Ev)) : Prop :=
  Ends t.rest ∧ l.Pairwise (fun x y => x.1 ≤ y.1) ∧ (∀ x ∈ l, now ≤ x.1) ∧
    match t.next with
    | some p => ∃ k, l = (k, p.2) :: ticksFrom k t.rest ∧ p.1 = (k : ℚ) - now
    | none => l = [] ∧ t.rest = []

theorem fetch_timepos (t : Track) : (fetch t).timepos = t.timepos := by
  unfold fetch
  split
  · rfl
  · split
    · rfl
    · split <;> rfl

theorem fetch_rel {now : Nat} {t : Track} {l : List (Nat × Ev)} (h : Rel now t l) : Fetched now (fetch t) l := by
  obtain ⟨h1, h2, h3, h4⟩ := h
  unfold fetch
  split
  · rename_i p hp
    rw [hp] at h4
    refine ⟨h1, h2, h3, ?_⟩
    rw [hp]
    exact h4
  · rename_i hp
    rw [hp] at h4
    simp only at h4
    split
    · rename_i hr
      refine ⟨h1, h2, h3, ?_⟩
      rw [hp]
      simp only [hr, ticksFrom] at h4 ⊢
      exact ⟨h4, trivial⟩
    · rename_i d e r hr
      rw [hr] at h1 h4
      simp only [ticksFrom, Ends] at h1 h4
      split
      · rename_i he
        simp only [he, if_true] at h1 h4
        refine ⟨by rw [h1]; trivial, h2, h3, ?_⟩
        simp only [hp]
        exact ⟨h4, h1⟩
      · rename_i he
        simp only [he, if_false] at h1 h4
        exact ⟨h1, h2, h3, now + d, h4, by push_cast; ring⟩

theorem fetched_rel {now : Nat} {t : Track} {l : List (Nat × Ev)} (h : Fetched now t l) : Rel now t l := by
  obtain ⟨h1, h2, h3, h4⟩ := h
  refine ⟨h1, h2, h3, ?_⟩
  split
  · rename_i p hp
    rw [hp] at h4
    exact h4
  · rename_i hp
    rw [hp] at h4
    rw [h4.1, h4.2]
    rfl

/-- A track that is not chosen goes on to tick `k`. -/
theorem advance_rel {d : Division} (hd : d.Valid) {tempo : Nat} (ht : 0 < tempo) {now k : Nat} (hk : now ≤ k) {t : Track}
    {l : List (Nat × Ev)} (h : Fetched now t l) (hl : ∀ x ∈ l, k ≤ x.1) :
    Rel k (advance d tempo (((k : ℚ) - now) * secondsPerTick d tempo) t) l := by
  obtain ⟨h1, h2, h3, h4⟩ := fetch_rel (fetched_rel h)
  unfold advance
  split
  · rename_i p hp
    rw [hp] at h4
    obtain ⟨m, e1, e2⟩ := h4
    refine ⟨h1, h2, hl, m, e1, ?_⟩
    rw [timeDelta_eq hd ht]
    simp only
    linarith
  · rename_i hp
    rw [hp] at h4
    refine ⟨h1, h2, hl, ?_⟩
    simp only [hp]
    rw [h4.1, h4.2]
    rfl

theorem advance_timepos (d : Division) (tempo : Nat) (time : ℚ) (t : Track) : (advance d tempo time t).timepos = t.timepos + time := by
  unfold advance
  split <;> rfl

/-- What `nearest` finds: the first of the tracks whose events come soonest. -/
theorem nearest_spec {d : Division} (hd : d.Valid) {tempo : Nat} (ht : 0 < tempo) {now : Nat} {clock : ℚ} (ts : List Track) :
    ∀ (L : Nat → List (Nat × Ev)) (i : Nat) (best : Option (Nat × Nat)),
      (∀ m t, ts[m]? = some t → Fetched now t (L (i + m)) ∧ t.timepos = clock) →
      ∃ res : Option (Nat × Nat),
        nearest d tempo i (best.map fun b => (b.1, ((b.2 : ℚ) - now) * secondsPerTick d tempo + clock)) ts =
          res.map (fun b => (b.1, ((b.2 : ℚ) - now) * secondsPerTick d tempo + clock)) ∧
        (res = none → best = none ∧ ∀ m < ts.length, L (i + m) = []) ∧
        ∀ j k, res = some (j, k) →
          (best = some (j, k) ∧ ∀ m < ts.length, ∀ x ∈ L (i + m), k ≤ x.1) ∨
          (∃ m, m < ts.length ∧ j = i + m ∧ (∃ e l, L j = (k, e) :: l) ∧ (∀ m' < m, ∀ x ∈ L (i + m'), k < x.1) ∧
            (∀ m' < ts.length, ∀ x ∈ L (i + m'), k ≤ x.1) ∧ ∀ b, best = some b → k < b.2) := by
  have fp := spt_pos hd ht
  induction ts with
  | nil =>
    intro L i best _
    refine ⟨best, rfl, fun h => ⟨h, by simp⟩, fun j k h => .inl ⟨h, by simp⟩⟩
  | cons t ts ih =>
    intro L i best h
    obtain ⟨hf, htp⟩ := h 0 t rfl
    have hrest : ∀ m t', ts[m]? = some t' → Fetched now t' (L (i + 1 + m)) ∧ t'.timepos = clock := by
      intro m t' hm
      have := h (m + 1) t' (by simpa using hm)
      rwa [show i + (m + 1) = i + 1 + m by omega] at this
    rw [Nat.add_zero] at hf
    obtain ⟨h1, h2, h3, h4⟩ := hf
    -- the case where the choice does not change
    have keep : ∀ b : Option (Nat × Nat), (∀ x ∈ L i, ∃ y, b = some y ∧ y.2 ≤ x.1) →
        nearest d tempo i (best.map fun b => (b.1, ((b.2 : ℚ) - now) * secondsPerTick d tempo + clock)) (t :: ts) =
          nearest d tempo (i + 1) (b.map fun b => (b.1, ((b.2 : ℚ) - now) * secondsPerTick d tempo + clock)) ts → b = best →
        ∃ res : Option (Nat × Nat),
        nearest d tempo i (best.map fun b => (b.1, ((b.2 : ℚ) - now) * secondsPerTick d tempo + clock)) (t :: ts) =
          res.map (fun b => (b.1, ((b.2 : ℚ) - now) * secondsPerTick d tempo + clock)) ∧
        (res = none → best = none ∧ ∀ m < (t :: ts).length, L (i + m) = []) ∧
        ∀ j k, res = some (j, k) →
          (best = some (j, k) ∧ ∀ m < (t :: ts).length, ∀ x ∈ L (i + m), k ≤ x.1) ∨
          (∃ m, m < (t :: ts).length ∧ j = i + m ∧ (∃ e l, L j = (k, e) :: l) ∧ (∀ m' < m, ∀ x ∈ L (i + m'), k < x.1) ∧
            (∀ m' < (t :: ts).length, ∀ x ∈ L (i + m'), k ≤ x.1) ∧ ∀ b, best = some b → k < b.2) := by
      rintro b hb heq rfl
      obtain ⟨res, r1, r2, r3⟩ := ih L (i + 1) b hrest
      refine ⟨res, heq.trans r1, ?_, ?_⟩
      · intro hn
        obtain ⟨a1, a2⟩ := r2 hn
        refine ⟨a1, fun m hm => ?_⟩
        cases m with
        | zero =>
          rw [Nat.add_zero, List.eq_nil_iff_forall_not_mem]
          intro x hx
          obtain ⟨y, hy, -⟩ := hb x hx
          rw [a1] at hy
          cases hy
        | succ m =>
          rw [show i + (m + 1) = i + 1 + m by omega]
          exact a2 m (by simpa using hm)
      · intro j k hr
        rcases r3 j k hr with ⟨a1, a2⟩ | ⟨m, m1, m2, m3, m4, m5, m6⟩
        · refine .inl ⟨a1, fun m hm x hx => ?_⟩
          cases m with
          | zero =>
            obtain ⟨y, hy, hle⟩ := hb x hx
            rw [a1] at hy
            cases hy
            exact hle
          | succ m => exact a2 m (by simpa using hm) x (by rwa [show i + (m + 1) = i + 1 + m by omega] at hx)
        · refine .inr ⟨m + 1, by simpa using m1, by omega, m3, ?_, ?_, m6⟩
          · intro m' hm' x hx
            cases m' with
            | zero =>
              obtain ⟨y, hy, hle⟩ := hb x hx
              exact lt_of_lt_of_le (m6 y hy) hle
            | succ m' => exact m4 m' (by omega) x (by rwa [show i + (m' + 1) = i + 1 + m' by omega] at hx)
          · intro m' hm' x hx
            cases m' with
            | zero =>
              obtain ⟨y, hy, hle⟩ := hb x hx
              exact le_of_lt (lt_of_lt_of_le (m6 y hy) hle)
            | succ m' => exact m5 m' (by simpa using hm') x (by rwa [show i + (m' + 1) = i + 1 + m' by omega] at hx)
    cases hp : t.next with
    | none =>
      rw [hp] at h4
      refine keep best ?_ ?_ rfl
      · intro x hx
        rw [h4.1] at hx
        simp at hx
      · simp only [nearest, hp]
    | some p =>
      rw [hp] at h4
      obtain ⟨k, e1, e2⟩ := h4
      have time : deltaTime d tempo p.1 + t.timepos = ((k : ℚ) - now) * secondsPerTick d tempo + clock := by
        rw [deltaTime_eq, e2, htp]
      have sorted : ∀ x ∈ L i, k ≤ x.1 := by
        intro x hx
        rw [e1] at hx h2
        rcases List.mem_cons.mp hx with rfl | hx
        · exact le_rfl
        · exact (List.pairwise_cons.mp h2).1 x hx
      -- the case where this track is chosen
      have take : (∀ b, best = some b → k < b.2) →
          nearest d tempo i (best.map fun b => (b.1, ((b.2 : ℚ) - now) * secondsPerTick d tempo + clock)) (t :: ts) =
            nearest d tempo (i + 1) ((some (i, k)).map fun b => (b.1, ((b.2 : ℚ) - now) * secondsPerTick d tempo + clock)) ts →
          ∃ res : Option (Nat × Nat),
          nearest d tempo i (best.map fun b => (b.1, ((b.2 : ℚ) - now) * secondsPerTick d tempo + clock)) (t :: ts) =
            res.map (fun b => (b.1, ((b.2 : ℚ) - now) * secondsPerTick d tempo + clock)) ∧
          (res = none → best = none ∧ ∀ m < (t :: ts).length, L (i + m) = []) ∧
          ∀ j k, res = some (j, k) →
            (best = some (j, k) ∧ ∀ m < (t :: ts).length, ∀ x ∈ L (i + m), k ≤ x.1) ∨
            (∃ m, m < (t :: ts).length ∧ j = i + m ∧ (∃ e l, L j = (k, e) :: l) ∧ (∀ m' < m, ∀ x ∈ L (i + m'), k < x.1) ∧
              (∀ m' < (t :: ts).length, ∀ x ∈ L (i + m'), k ≤ x.1) ∧ ∀ b, best = some b → k < b.2) := by
        intro hlt heq
        obtain ⟨res, r1, r2, r3⟩ := ih L (i + 1) (some (i, k)) hrest
        refine ⟨res, heq.trans r1, ?_, ?_⟩
        · intro hn
          exact absurd (r2 hn).1 (by simp)
        · intro j k' hr
          rcases r3 j k' hr with ⟨a1, a2⟩ | ⟨m, m1, m2, m3, m4, m5, m6⟩
          · simp only [Option.some.injEq, Prod.mk.injEq] at a1
            obtain ⟨rfl, rfl⟩ := a1
            refine .inr ⟨0, by simp, rfl, ⟨_, _, e1⟩, by simp, ?_, hlt⟩
            intro m' hm' x hx
            cases m' with
            | zero => exact sorted x hx
            | succ m' => exact a2 m' (by simpa using hm') x (by rwa [show i + (m' + 1) = i + 1 + m' by omega] at hx)
          · have hlt' : k' < k := m6 _ rfl
            refine .inr ⟨m + 1, by simpa using m1, by omega, m3, ?_, ?_, fun b hb => lt_trans hlt' (hlt b hb)⟩
            · intro m' hm' x hx
              cases m' with
              | zero => exact lt_of_lt_of_le hlt' (sorted x hx)
              | succ m' => exact m4 m' (by omega) x (by rwa [show i + (m' + 1) = i + 1 + m' by omega] at hx)
            · intro m' hm' x hx
              cases m' with
              | zero => exact le_of_lt (lt_of_lt_of_le hlt' (sorted x hx))
              | succ m' => exact m5 m' (by simpa using hm') x (by rwa [show i + (m' + 1) = i + 1 + m' by omega] at hx)
      cases best with
      | none =>
        refine take (by simp) ?_
        simp only [nearest, hp, Option.map_none, Option.map_some, time]
      | some b =>
        by_cases hlt : k < b.2
        · refine take (by simpa using hlt) ?_
          have : (k : ℚ) < b.2 := by exact_mod_cast hlt
          simp only [nearest, hp, Option.map_some, time]
          rw [if_pos]
          have := mul_lt_mul_of_pos_right (sub_lt_sub_right this (now : ℚ)) fp
          linarith
        · refine keep (some b) ?_ ?_ rfl
          · intro x hx
            exact ⟨b, rfl, le_trans (by omega) (sorted x hx)⟩
          · have : (b.2 : ℚ) ≤ k := by exact_mod_cast (by omega : b.2 ≤ k)
            simp only [nearest, hp, Option.map_some, time]
            rw [if_neg]
            have := mul_le_mul_of_nonneg_right (sub_le_sub_right this (now : ℚ)) (le_of_lt fp)
            linarith

/-- The state of the sequencer at tick `now` and time `clock` with the events `L` to come. -/
structure Inv (s : Seq) (now : Nat) (clock : ℚ) (L : Nat → List (Nat × Ev)) : Prop where
  division : s.division.Valid
  tempo : 0 < s.tempo
  tempos : ∀ i k t, (k, Ev.tempo t) ∈ L i → 0 < t
  tracks : ∀ i t, s.tracks[i]? = some t → Rel now t (L i) ∧ t.timepos = clock
  beyond : ∀ i, s.tracks.length ≤ i → L i = []

/-- Nothing is left, or the soonest event comes, of the first track that has one. -/
theorem next_spec {s : Seq} {now : Nat} {clock : ℚ} {L : Nat → List (Nat × Ev)} (h : Inv s now clock L) :
    (nextEvent s = none ∧ ∀ i, L i = []) ∨
    ∃ j k e l s', L j = (k, e) :: l ∧ j < s.tracks.length ∧ now ≤ k ∧ (∀ i < j, ∀ x ∈ L i, k < x.1) ∧ (∀ i, ∀ x ∈ L i, k ≤ x.1) ∧
      nextEvent s = some ((clock + (k - now : Nat) * secondsPerTick s.division s.tempo, j, e), s') ∧
      s'.division = s.division ∧ s'.tempo = (match e with | .tempo t => t | _ => s.tempo) ∧ s'.tracks.length = s.tracks.length ∧
      Inv s' k (clock + (k - now : Nat) * secondsPerTick s.division s.tempo) (Function.update L j l) := by
  have hfet : ∀ m t, (s.tracks.map fetch)[m]? = some t → Fetched now t (L (0 + m)) ∧ t.timepos = clock := by
    intro m t hm
    rw [List.getElem?_map] at hm
    obtain ⟨t0, h0, rfl⟩ := Option.map_eq_some_iff.mp hm
    obtain ⟨a, b⟩ := h.tracks m t0 h0
    rw [Nat.zero_add, fetch_timepos]
    exact ⟨fetch_rel a, b⟩
  obtain ⟨res, r1, r2, r3⟩ := nearest_spec h.division h.tempo (s.tracks.map fetch) L 0 none hfet
  rw [Option.map_none] at r1
  cases res with
  | none =>
    left
    refine ⟨?_, fun i => ?_⟩
    · simp only [nextEvent, r1, Option.map_none]
    · by_cases hi : i < s.tracks.length
      · simpa using (r2 rfl).2 i (by simpa using hi)
      · exact h.beyond i (by omega)
  | some b =>
    right
    obtain ⟨j, k⟩ := b
    rcases r3 j k rfl with ⟨a, -⟩ | ⟨m, m1, m2, ⟨e, l, m3⟩, m4, m5, -⟩
    · cases a
    · rw [Nat.zero_add] at m2
      subst m2
      rw [List.length_map] at m1
      have all : ∀ i, ∀ x ∈ L i, k ≤ x.1 := by
        intro i x hx
        by_cases hi : i < s.tracks.length
        · exact m5 i (by simpa using hi) x (by simpa using hx)
        · rw [h.beyond i (by omega)] at hx
          simp at hx
      obtain ⟨t, htr⟩ : ∃ t, (s.tracks.map fetch)[j]? = some t := ⟨_, List.getElem?_eq_getElem (by simpa using m1)⟩
      obtain ⟨hF, htp⟩ := hfet j t htr
      rw [Nat.zero_add] at hF
      obtain ⟨f1, f2, f3, f4⟩ := hF
      have hk : now ≤ k := f3 (k, e) (by rw [m3]; simp)
      have hcast : ((k - now : Nat) : ℚ) = (k : ℚ) - now := Nat.cast_sub hk
      cases hn : t.next with
      | none =>
        rw [hn] at f4
        rw [m3] at f4
        exact absurd f4.1 (by simp)
      | some p =>
        rw [hn] at f4
        obtain ⟨k', e1, e2⟩ := f4
        rw [m3] at e1
        simp only [List.cons.injEq, Prod.mk.injEq] at e1
        obtain ⟨⟨rfl, rfl⟩, hl⟩ := e1
        simp only [Option.map_some] at r1
        refine ⟨j, k, p.2, l, { s with
            tempo := match p.2 with
              | .tempo t => t
              | _ => s.tempo
            tracks := (s.tracks.map fetch).mapIdx (fun i t' =>
              if i = j then { t' with timepos := ((k : ℚ) - now) * secondsPerTick s.division s.tempo + clock, next := none }
              else advance s.division s.tempo (((k : ℚ) - now) * secondsPerTick s.division s.tempo + clock - t.timepos) t') }, m3, m1, hk, fun i hi x hx => m4 i hi x (by simpa using hx), all, ?_, rfl, ?_, ?_, ?_⟩
        · rw [hcast, add_comm clock]
          simp only [nextEvent, r1, htr, hn]
          rfl
        · rfl
        · simp
        · rw [m3] at f2 f3
          have tpos : 0 < (match p.2 with | .tempo t => t | _ => s.tempo) := by
            cases hp : p.2 with
            | tempo t => exact h.tempos j k t (by rw [m3, hp]; simp)
            | _ => exact h.tempo
          refine ⟨h.division, tpos, ?_, ?_, ?_⟩
          · intro i k' t' hm
            by_cases hi : i = j
            · subst hi
              rw [Function.update_self] at hm
              exact h.tempos i k' t' (by rw [m3]; exact List.mem_cons_of_mem _ hm)
            · rw [Function.update_of_ne hi] at hm
              exact h.tempos i k' t' hm
          · intro i t' hi'
            simp only [List.getElem?_mapIdx] at hi'
            obtain ⟨t0, h0, rfl⟩ := Option.map_eq_some_iff.mp hi'
            by_cases hi : i = j
            · subst hi
              rw [htr, Option.some.injEq] at h0
              subst h0
              rw [Function.update_self, if_pos rfl, hcast]
              refine ⟨⟨f1, (List.pairwise_cons.mp f2).2, (List.pairwise_cons.mp f2).1, hl⟩, add_comm _ _⟩
            · obtain ⟨g1, g2⟩ := hfet i t0 h0
              rw [Nat.zero_add] at g1
              rw [Function.update_of_ne hi, if_neg hi, hcast]
              have el : ((k : ℚ) - now) * secondsPerTick s.division s.tempo + clock - t.timepos =
                  ((k : ℚ) - now) * secondsPerTick s.division s.tempo := by rw [htp]; ring
              rw [el, advance_timepos, g2]
              exact ⟨advance_rel h.division h.tempo hk g1 (all i), rfl⟩
          · intro i hi
            simp only [List.length_mapIdx, List.length_map] at hi
            rw [Function.update_of_ne (by omega)]
            exact h.beyond i hi

theorem play_spec (n : Nat) : ∀ {s : Seq} {now : Nat} {clock : ℚ} {L : Nat → List (Nat × Ev)}, Inv s now clock L →
    ∑ i ∈ Finset.range s.tracks.length, (L i).length = n →
    ∃ all : List Placed, Merged L all ∧ (∀ x ∈ all, now ≤ x.1) ∧ all.length = n ∧
      ∀ fuel, n ≤ fuel → play fuel s = timed s.division s.tempo now clock all := by
  induction n with
  | zero =>
    intro s now clock L h hs
    have empty : ∀ i, L i = [] := by
      intro i
      by_cases hi : i < s.tracks.length
      · have := Finset.sum_eq_zero_iff.mp hs i (Finset.mem_range.mpr hi)
        exact List.length_eq_zero_iff.mp this
      · exact h.beyond i (by omega)
    refine ⟨[], ⟨.nil, fun i => by simp [empty i]⟩, by simp, rfl, fun fuel hf => ?_⟩
    cases fuel with
    | zero => rfl
    | succ fuel =>
      rcases next_spec h with ⟨hn, -⟩ | ⟨j, k, e, l, s', hj, -⟩
      · simp only [play, hn, timed]
      · rw [empty j] at hj
        cases hj
  | succ n ih =>
    intro s now clock L h hs
    rcases next_spec h with ⟨-, hn⟩ | ⟨j, k, e, l, s', hj, hjl, hk, before, after, hn, hd, htm, hlen, hinv⟩
    · simp only [hn, List.length_nil, Finset.sum_const_zero] at hs
      omega
    · have hs' : ∑ i ∈ Finset.range s'.tracks.length, (Function.update L j l i).length = n := by
        rw [hlen]
        have m : j ∈ Finset.range s.tracks.length := Finset.mem_range.mpr hjl
        rw [← Finset.add_sum_erase _ _ m, hj, List.length_cons] at hs
        rw [← Finset.add_sum_erase _ _ m, Function.update_self]
        have : ∑ x ∈ (Finset.range s.tracks.length).erase j, (Function.update L j l x).length =
            ∑ x ∈ (Finset.range s.tracks.length).erase j, (L x).length :=
          Finset.sum_congr rfl fun x hx => by rw [Function.update_of_ne (Finset.ne_of_mem_erase hx)]
        omega
      obtain ⟨all, hm, hge, hl, hp⟩ := ih hinv hs'
      refine ⟨(k, j, e) :: all, ⟨?_, ?_⟩, ?_, by simp [hl], fun fuel hf => ?_⟩
      · refine List.pairwise_cons.mpr ⟨fun y hy => ?_, hm.ordered⟩
        have hy1 := hge y hy
        rcases Nat.lt_or_ge k y.1 with h1 | h1
        · exact .inl h1
        · refine .inr ⟨by simp only; omega, ?_⟩
          by_contra hc
          simp only [not_le] at hc
          have mem : (y.1, y.2.2) ∈ Function.update L j l y.2.1 := by
            rw [← hm.each y.2.1]
            exact List.mem_map.mpr ⟨y, List.mem_filter.mpr ⟨hy, by simp⟩, rfl⟩
          rw [Function.update_of_ne (by omega)] at mem
          have := before _ hc _ mem
          simp only at this
          omega
      · intro i
        by_cases hi : j = i
        · subst hi
          have := hm.each j
          rw [Function.update_self] at this
          simp [this, hj]
        · have := hm.each i
          rw [Function.update_of_ne (Ne.symm hi)] at this
          simp [hi, this]
      · intro x hx
        rcases List.mem_cons.mp hx with rfl | hx
        · exact hk
        · exact le_trans hk (hge x hx)
      · obtain ⟨fuel, rfl⟩ : ∃ f, fuel = f + 1 := ⟨fuel - 1, by omega⟩
        simp only [play, hn, timed, hp fuel (by omega), hd, htm]

theorem lead_cases (r : List (Nat × Ev)) : ∀ a, Ends r → leadTempo a r = a ∨ ∃ t, (0, Ev.tempo t) ∈ ticksFrom 0 r := by
  induction r with
  | nil => intro a _; exact .inl rfl
  | cons y r ih =>
    intro a he
    obtain ⟨d, e⟩ := y
    unfold leadTempo
    split
    · rename_i h
      obtain ⟨rfl, h⟩ := h
      cases e with
      | tempo t => exact .inr ⟨t, by simp [ticksFrom]⟩
      | endOfTrack =>
        simp only [Ends, if_true] at he
        rw [he]
        exact .inl rfl
      | other =>
        simp only [Ends, reduceCtorEq, if_false] at he
        rcases ih a he with h | ⟨t, h⟩
        · exact .inl h
        · exact .inr ⟨t, by simp [ticksFrom, h]⟩
      | _ => simp [Ev.isMeta] at h
    · exact .inl rfl

theorem lead_pos (r : List (Nat × Ev)) : ∀ a, 0 < a → Tempos r → 0 < leadTempo a r := by
  induction r with
  | nil => intro a h _; exact h
  | cons y r ih =>
    intro a h ht
    obtain ⟨d, e⟩ := y
    have ht' : Tempos r := fun d t hm => ht d t (List.mem_cons_of_mem _ hm)
    unfold leadTempo
    split
    · cases e with
      | tempo t => exact ih t (ht d t (by simp)) ht'
      | _ => exact ih a h ht'
    · exact h

theorem leads_cases (file : List (List (Nat × Ev))) : ∀ a, (∀ r ∈ file, Ends r) →
    file.foldl leadTempo a = a ∨ ∃ r ∈ file, ∃ t, (0, Ev.tempo t) ∈ ticksFrom 0 r := by
  induction file with
  | nil => intro a _; exact .inl rfl
  | cons r file ih =>
    intro a h
    rcases lead_cases r a (h r (by simp)) with e | ⟨t, ht⟩
    · rw [List.foldl_cons, e]
      rcases ih a (fun r hr => h r (by simp [hr])) with e | ⟨r', hr', ht⟩
      · exact .inl e
      · exact .inr ⟨r', by simp [hr'], ht⟩
    · exact .inr ⟨r, by simp, t, ht⟩

theorem leads_pos (file : List (List (Nat × Ev))) : ∀ a, 0 < a → (∀ r ∈ file, Tempos r) → 0 < file.foldl leadTempo a := by
  induction file with
  | nil => intro a h _; exact h
  | cons r file ih => exact fun a h ht => ih _ (lead_pos r a h (ht r (by simp))) fun r hr => ht r (by simp [hr])

/-- With a tempo set where it begins, what was in force before does not matter. -/
theorem timed_any (d : Division) (a b last : Nat) (now : ℚ) (all : List Placed) :
    all.Pairwise (fun x y => x.1 ≤ y.1) → (∀ x ∈ all, last ≤ x.1) → (∃ j t, (last, j, Ev.tempo t) ∈ all) →
      timed d a last now all = timed d b last now all := by
  induction all with
  | nil => rintro _ _ ⟨j, t, h⟩; simp at h
  | cons y r ih =>
    rintro hs hl ⟨j, t, h⟩
    obtain ⟨hs1, hs2⟩ := List.pairwise_cons.mp hs
    have hy : y.1 = last := by
      have := hl y (by simp)
      rcases List.mem_cons.mp h with h | h
      · rw [← h]
      · have := hs1 _ h
        simp only at this
        omega
    have h0 : ((y.1 - last : Nat) : ℚ) = 0 := by rw [hy, Nat.sub_self, Nat.cast_zero]
    simp only [timed, h0, zero_mul, add_zero]
    congr 1
    obtain ⟨k, i, e⟩ := y
    cases e with
    | tempo t' => rfl
    | _ =>
      simp only at hy ⊢
      rw [hy]
      refine ih hs2 (fun x hx => hl x (List.mem_cons_of_mem _ hx)) ⟨j, t, ?_⟩
      rcases List.mem_cons.mp h with h | h
      · cases h
      · exact h

theorem timed_ge (d : Division) (all : List Placed) : ∀ tempo last now, ∀ x ∈ timed d tempo last now all, now ≤ x.1 := by
  induction all with
  | nil => intro _ _ _ x hx; simp [timed] at hx
  | cons y r ih =>
    intro tempo last now x hx
    have : (0 : ℚ) ≤ (y.1 - last : Nat) * secondsPerTick d tempo := by
      cases d <;> simp only [secondsPerTick] <;> positivity
    rcases List.mem_cons.mp hx with rfl | hx
    · simp only; linarith
    · have := ih _ _ _ x hx
      linarith

theorem timed_sorted (d : Division) (all : List Placed) : ∀ tempo last now,
    (timed d tempo last now all).Pairwise (fun x y => x.1 ≤ y.1) := by
  induction all with
  | nil => intro _ _ _; exact .nil
  | cons y r ih => intro tempo last now; exact List.pairwise_cons.mpr ⟨fun x hx => timed_ge d r _ _ _ x hx, ih _ _ _⟩

theorem timed_events (d : Division) (all : List Placed) : ∀ tempo last now,
    (timed d tempo last now all).map Prod.snd = all.map Prod.snd := by
  induction all with
  | nil => intro _ _ _; rfl
  | cons y r ih => intro tempo last now; simp [timed, ih]

theorem ticksFrom_mem : ∀ (r : List (Nat × Ev)) (a k : Nat) (e : Ev), (k, e) ∈ ticksFrom a r → ∃ d, (d, e) ∈ r := by
  intro r
  induction r with
  | nil => intro a k e h; simp [ticksFrom] at h
  | cons y r ih =>
    intro a k e h
    obtain ⟨d', e'⟩ := y
    simp only [ticksFrom] at h
    split at h
    · simp at h
    · rcases List.mem_cons.mp h with h | h
      · simp only [Prod.mk.injEq] at h
        exact ⟨d', by simp [h.2]⟩
      · obtain ⟨d'', h⟩ := ih _ _ _ h
        exact ⟨d'', List.mem_cons_of_mem _ h⟩

/-! ### C150 -/

/-- The events of all tracks up to their ends are played: each exactly once, those of a track in their order, all by their places in
ticks and at the same tick by track; at the times that the tempos played so far give, at first half a second for a quarter note. For every
number of tracks and every division. -/
theorem tracks_merged_partial {d : Division} (hd : d.Valid) {file : List (List (Nat × Ev))} (he : ∀ r ∈ file, Ends r)
    (ht : ∀ r ∈ file, Tempos r) :
    ∃ all : List Placed, Merged (fun i => ticksFrom 0 (file.getD i [])) all ∧
      ∀ fuel, (file.map List.length).sum ≤ fuel → play fuel (start d file) = timed d 500000 0 0 all := by
  have len : ∀ (r : List (Nat × Ev)) (a : Nat), (ticksFrom a r).length ≤ r.length := by
    intro r
    induction r with
    | nil => intro a; simp [ticksFrom]
    | cons y r ih =>
      intro a
      simp only [ticksFrom]
      split
      · simp
      · simpa using ih _
  have inv : Inv (start d file) 0 0 (fun i => ticksFrom 0 (file.getD i [])) := by
    refine ⟨hd, leads_pos file 500000 (by norm_num) ht, ?_, ?_, ?_⟩
    · intro i k t hm
      obtain ⟨d', h⟩ := ticksFrom_mem _ _ _ _ hm
      rw [List.getD_eq_getElem?_getD] at h
      cases hr : file[i]? with
      | none => simp [hr] at h
      | some r => exact ht r (List.mem_of_getElem? hr) d' t (by simpa [hr] using h)
    · intro i t hi
      simp only [start, List.getElem?_map] at hi
      obtain ⟨r, hr, rfl⟩ := Option.map_eq_some_iff.mp hi
      rw [List.getD_eq_getElem?_getD, hr, Option.getD_some]
      exact ⟨⟨he r (List.mem_of_getElem? hr), ticksFrom_sorted r 0, fun _ _ => Nat.zero_le _, rfl⟩, rfl⟩
    · intro i hi
      simp only [start, List.length_map] at hi
      rw [List.getD_eq_getElem?_getD, List.getElem?_eq_none hi]
      rfl
  have count : ∀ file : List (List (Nat × Ev)),
      ∑ i ∈ Finset.range file.length, (ticksFrom 0 (file.getD i [])).length ≤ (file.map List.length).sum := by
    intro file
    induction file with
    | nil => simp
    | cons r file ih =>
      rw [List.length_cons, Finset.sum_range_succ']
      have := len r 0
      simp only [List.getD_cons_succ, List.getD_cons_zero, List.map_cons, List.sum_cons]
      omega
  obtain ⟨all, hm, -, -, hp⟩ := play_spec _ inv rfl
  refine ⟨all, hm, fun fuel hf => (hp fuel (by simpa [start] using le_trans (count file) hf)).trans ?_⟩
  rcases leads_cases file 500000 he with h | ⟨r, hr, t, hrt⟩
  · simp only [start]
    rw [h]
  · obtain ⟨i, hi, rfl⟩ := List.mem_iff_getElem.mp hr
    refine timed_any d _ _ 0 0 all (hm.ordered.imp ?_) (fun _ _ => Nat.zero_le _) ⟨i, t, ?_⟩
    · intro a b h
      rcases h with h | h <;> omega
    · have : (0, Ev.tempo t) ∈ ticksFrom 0 (file.getD i []) := by simpa [List.getD_eq_getElem?_getD, hi] using hrt
      rw [← hm.each i] at this
      obtain ⟨x, hx, e⟩ := List.mem_map.mp this
      obtain ⟨hx, hi'⟩ := List.mem_filter.mp hx
      obtain ⟨x1, x2, x3⟩ := x
      simp only [Prod.mk.injEq, decide_eq_true_eq] at e hi'
      rw [← e.1, ← e.2, ← hi']
      exact hx

/-- There is only one such order of the events. -/
theorem merged_unique : ∀ {a b : List Placed} {file : Nat → List (Nat × Ev)}, Merged file a → Merged file b → a = b := by
  have head : ∀ {x : Placed} {l : List Placed} {file : Nat → List (Nat × Ev)}, Merged file (x :: l) →
      ∃ t, file x.2.1 = (x.1, x.2.2) :: t ∧ Merged (Function.update file x.2.1 t) l := by
    intro x l file h
    have e := h.each x.2.1
    simp only [List.filter_cons, decide_true, if_true, List.map_cons] at e
    refine ⟨_, e.symm, (List.pairwise_cons.mp h.ordered).2, fun i => ?_⟩
    by_cases hi : i = x.2.1
    · subst hi
      rw [Function.update_self]
    · rw [Function.update_of_ne hi, ← h.each i]
      simp [Ne.symm hi]
  have mem : ∀ {y : Placed} {l : List Placed} {file : Nat → List (Nat × Ev)}, Merged file l → (y.1, y.2.2) ∈ file y.2.1 → y ∈ l := by
    intro y l file h hy
    rw [← h.each y.2.1] at hy
    obtain ⟨x, hx, e⟩ := List.mem_map.mp hy
    obtain ⟨hm, hi⟩ := List.mem_filter.mp hx
    obtain ⟨x1, x2, x3⟩ := x
    simp only [Prod.mk.injEq, decide_eq_true_eq] at e hi
    obtain ⟨y1, y2, y3⟩ := y
    simp only at e hi
    rw [← e.1, ← e.2, ← hi]
    exact hm
  have least : ∀ {x y : Placed} {l : List Placed} {file : Nat → List (Nat × Ev)}, Merged file (x :: l) → (y.1, y.2.2) ∈ file y.2.1 →
      Before x y := by
    intro x y l file h hy
    rcases List.mem_cons.mp (mem h hy) with rfl | hm
    · exact .inr ⟨rfl, le_rfl⟩
    · exact (List.pairwise_cons.mp h.ordered).1 y hm
  intro a
  induction a with
  | nil =>
    intro b file ha hb
    cases b with
    | nil => rfl
    | cons y l =>
      obtain ⟨t, h, -⟩ := head hb
      rw [← ha.each] at h
      simp at h
  | cons x a ih =>
    intro b file ha hb
    obtain ⟨t, h1, h2⟩ := head ha
    cases b with
    | nil =>
      rw [← hb.each] at h1
      simp at h1
    | cons y b =>
      obtain ⟨t', h1', h2'⟩ := head hb
      have l1 := least ha (y := y) (by rw [h1']; simp)
      have l2 := least hb (y := x) (by rw [h1]; simp)
      unfold Before at l1 l2
      have e1 : x.1 = y.1 := by omega
      have e2 : x.2.1 = y.2.1 := by omega
      rw [e2, h1'] at h1
      simp only [List.cons.injEq, Prod.mk.injEq] at h1
      have e3 : x = y := by
        obtain ⟨x1, x2, x3⟩ := x
        obtain ⟨y1, y2, y3⟩ := y
        simp only at e1 e2 h1
        rw [e1, e2, h1.1.2]
      subst e3
      rw [h1.2] at h2'
      rw [ih h2 h2']

/-- Without the first hypothesis it fails. Here a tempo follows the end of the first track, as the reader of files permits; it takes effect
before anything else, so that the note at tick 480 comes after one second instead of half a second. Then it is played itself, at a time that
lies before. -/
theorem after_end_violated :
    Merged (fun i => ticksFrom 0 ([[(0, Ev.endOfTrack), (0, .tempo 1000000)], [(480, .message [144, 60, 100])]].getD i []))
      [(480, 1, .message [144, 60, 100])] ∧
    timed (.quarter 480) 500000 0 0 [(480, 1, .message [144, 60, 100])] = [(1 / 2, 1, .message [144, 60, 100])] ∧
    play 10 (start (.quarter 480) [[(0, .endOfTrack), (0, .tempo 1000000)], [(480, .message [144, 60, 100])]]) =
      [(1, 1, .message [144, 60, 100]), (0, 0, .tempo 1000000)] := by
  refine ⟨⟨by simp, fun i => ?_⟩, by decide +kernel, by decide +kernel⟩
  match i with
  | 0 => decide +kernel
  | 1 => decide +kernel
  | i + 2 => simp [ticksFrom]

/-- Two tracks: a tempo of one second for a quarter note from tick 240 on in the first, notes at 240 and 480 in the second. -/
def sample : List (List (Nat × Ev)) :=
  [[(0, .other), (240, .tempo 1000000), (0, .endOfTrack)], [(240, .message [144, 60, 100]), (240, .message [128, 60, 0]), (0, .endOfTrack)]]

example : (∀ r ∈ sample, Ends r) ∧ (∀ r ∈ sample, Tempos r) ∧ (Division.quarter 480).Valid ∧
    play 10 (start (.quarter 480) sample) =
      [(0, 0, .other), (1 / 4, 0, .tempo 1000000), (1 / 4, 1, .message [144, 60, 100]), (3 / 4, 1, .message [128, 60, 0])] := by
  refine ⟨by simp [sample, Ends], ?_, by simp [Division.Valid], by decide +kernel⟩
  intro r hr d t h
  simp only [sample, List.mem_cons, List.not_mem_nil, or_false] at hr
  rcases hr with rfl | rfl
  · simp at h
    omega
  · simp at h

example : Merged (fun i => ticksFrom 0 (sample.getD i []))
    [(0, 0, .other), (240, 0, .tempo 1000000), (240, 1, .message [144, 60, 100]), (480, 1, .message [128, 60, 0])] := by
  refine ⟨by simp [Before], fun i => ?_⟩
  match i with
  | 0 => decide +kernel
  | 1 => decide +kernel
  | i + 2 => simp [ticksFrom, sample]

/-- `say` reads the bytes of a message: a system message, which asks for nothing, or one of a channel, but no pressure. -/
def Says (say : List Nat → Option Clients.Message) (b : List Nat) : Prop :=
  match say b with
  | none => ∃ s, b.head? = some s ∧ 0xF0 ≤ s ∧ s < 256
  | some m => m.bytes = b ∧ m.Valid ∧ m.isPressure = false

/-- What an event asks of the synthesizer, when `say` reads the bytes of messages. -/
def meaningOf (say : List Nat → Option Clients.Message) (delay : Nat) : Ev → List Clients.Call
  | .message b => ((say b).map fun m => m.meaning delay).getD []
  | _ => []

theorem render_says {say : List Nat → Option Clients.Message} {b : List Nat} (h : Says say b) (delay : Nat) :
    Clients.renderEvent delay b = some (meaningOf say delay (.message b)) := by
  unfold Says at h
  unfold meaningOf
  cases hs : say b with
  | none =>
    rw [hs] at h
    obtain ⟨s, h1, h2, h3⟩ := h
    cases b with
    | nil => simp at h1
    | cons x r =>
      simp only [List.head?_cons, Option.some.injEq] at h1
      subst h1
      have : Clients.status x = 0xF0 := by
        unfold Clients.status
        interval_cases x <;> rfl
      simp [Clients.renderEvent, this, hs]
  | some m =>
    rw [hs] at h
    simp only at h ⊢
    have := Clients.render_message_partial delay h.2.1 h.2.2
    rw [h.1] at this
    simpa [hs] using this

/-- The renderer gives the synthesizer the messages of all tracks, each exactly once and in the order of the merged tracks, before the block
that its time falls into and with the delay of its frame in that block. -/
theorem render_file_partial {rate bs : Nat} (hr : 0 < rate) (hb : 0 < bs) {d : Division} (hd : d.Valid) {file : List (List (Nat × Ev))}
    (he : ∀ r ∈ file, Ends r) (ht : ∀ r ∈ file, Tempos r) {say : List Nat → Option Clients.Message}
    (hs : ∀ r ∈ file, ∀ n b, (n, Ev.message b) ∈ r → Says say b) :
    ∃ all : List Placed, Merged (fun i => ticksFrom 0 (file.getD i [])) all ∧
      ∀ fuel, (file.map List.length).sum ≤ fuel →
        ((timed d 500000 0 0 all).map fun e => Clients.frameOf rate e.1).foldr max 0 / bs < fuel →
        renderFile rate bs fuel d file = some ((List.range (((timed d 500000 0 0 all).map fun e => Clients.frameOf rate e.1).foldr max 0 / bs + 1)).map
          (fun b => ((timed d 500000 0 0 all).filter fun e => Clients.frameOf rate e.1 / bs = b).flatMap
            fun e => meaningOf say (Clients.frameOf rate e.1 % bs) e.2.2), true) := by
  obtain ⟨all, hm, hp⟩ := tracks_merged_partial hd he ht
  refine ⟨all, hm, fun fuel hf1 hf2 => ?_⟩
  have mem : ∀ e ∈ timed d 500000 0 0 all, ∀ b, e.2.2 = .message b → Says say b := by
    intro e hme b hb'
    have h1 : e.2 ∈ all.map Prod.snd := by
      rw [← timed_events d all 500000 0 0]
      exact List.mem_map_of_mem hme
    obtain ⟨x, hx, hxe⟩ := List.mem_map.mp h1
    have h2 : (x.1, x.2.2) ∈ ticksFrom 0 (file.getD x.2.1 []) := by
      rw [← hm.each x.2.1]
      exact List.mem_map.mpr ⟨x, List.mem_filter.mpr ⟨hx, by simp⟩, rfl⟩
    obtain ⟨n, h3⟩ := ticksFrom_mem _ _ _ _ h2
    rw [hxe, hb', List.getD_eq_getElem?_getD] at h3
    cases hr' : file[e.2.1]? with
    | none => simp [hr'] at h3
    | some r => exact hs r (List.mem_of_getElem? hr') n b (by simpa [hr'] using h3)
  have calls : ∀ e ∈ timed d 500000 0 0 all, ∀ n, Clients.callsOf n e.2.2.toClient = meaningOf say n e.2.2 := by
    intro e hme n
    cases h : e.2.2 with
    | message b =>
      simp [Ev.toClient, Clients.callsOf, render_says (mem e hme b h) n]
    | _ => rfl
  have g : Clients.Good ((timed d 500000 0 0 all).map fun e => (e.1, e.2.2.toClient)) := by
    refine ⟨List.pairwise_map.mpr (timed_sorted d all 500000 0 0), ?_, ?_⟩
    · intro e hme
      obtain ⟨x, hx, rfl⟩ := List.mem_map.mp hme
      exact timed_ge d all _ _ _ x hx
    · intro e hme b hb' n
      obtain ⟨x, hx, rfl⟩ := List.mem_map.mp hme
      cases h : x.2.2 with
      | message b' =>
        simp only [h, Ev.toClient, Clients.Event.message.injEq] at hb'
        have := render_says (mem x hx b' h) n
        rw [hb'] at this
        rw [this]
        rfl
      | _ => simp [h, Ev.toClient] at hb'
  have lf : Clients.lastFrame rate ((timed d 500000 0 0 all).map fun e => (e.1, e.2.2.toClient)) =
      ((timed d 500000 0 0 all).map fun e => Clients.frameOf rate e.1).foldr max 0 := by
    simp [Clients.lastFrame, Function.comp_def]
  have h := Clients.blocks_of hr g hb _ 0 fuel (Nat.zero_add _) (by rw [lf]; exact hf2)
  have whole : Clients.from_ rate (0 * bs) ((timed d 500000 0 0 all).map fun e => (e.1, e.2.2.toClient)) =
      (timed d 500000 0 0 all).map fun e => (e.1, e.2.2.toClient) := by
    simp [Clients.from_]
  rw [whole, Nat.zero_mul, Nat.cast_zero, zero_mul] at h
  unfold renderFile
  rw [hp fuel hf1, h, lf, List.range_eq_range']
  congr 2
  apply List.map_congr_left
  intro b _
  unfold Clients.between
  rw [List.filter_map, List.flatMap_map]
  have : ((fun e : ℚ × Clients.Event => decide (b * bs ≤ Clients.frameOf rate e.1 ∧ Clients.frameOf rate e.1 < b * bs + bs)) ∘
      fun e : ℚ × Nat × Ev => (e.1, e.2.2.toClient)) = fun e => decide (Clients.frameOf rate e.1 / bs = b) := by
    funext e
    simp only [Function.comp]
    rw [decide_eq_decide, Nat.div_eq_iff hb]
    omega
  rw [this, List.flatMap_def, List.flatMap_def]
  congr 1
  apply List.map_congr_left
  intro e hme
  obtain ⟨he1, he2⟩ := List.mem_filter.mp hme
  simp only [decide_eq_true_eq] at he2
  rw [calls e he1, ← he2]
  have := Nat.div_add_mod (Clients.frameOf rate e.1) bs
  rw [Nat.mul_comm] at this
  rw [show Clients.frameOf rate e.1 - Clients.frameOf rate e.1 / bs * bs = Clients.frameOf rate e.1 % bs by omega]

example : renderFile 1000 128 20 (.quarter 480) sample =
    some ([[], [.noteOn 122 60 100], [], [], [], [.noteOff 110 60 0]], true) := by
  decide +kernel

end Verif.Sequencer
