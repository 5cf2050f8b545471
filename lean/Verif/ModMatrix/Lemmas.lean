/-
Lemmas on the evaluation of the modulation matrix: the recursion ends, and computes the solution of the
equations of the graph.
-/
import Verif.ModMatrix.Model
import Mathlib.Tactic.Ring
import Mathlib.Data.List.Nodup

namespace Verif.ModMatrix

/-! ## Specification -/

/-- Every connection names a registered source. -/
def WellFormed (g : Graph) : Prop :=
  ∀ tgt ∈ g.targets, ∀ c ∈ tgt.conns, c.source < g.sources.length

/-- The graph has no cycle: targets can be ranked so that whatever a target depends on, through the
generators of its sources or through the modulation of their depths, has a smaller rank. -/
def Ranked (g : Graph) (rank : Nat → Nat) : Prop :=
  ∀ (t : Nat) (tgt : Target), g.targets[t]? = some tgt → ∀ c ∈ tgt.conns,
    (∀ u, c.depthMod = some u → rank u < rank t) ∧
    ∀ src, g.sources[c.source]? = some src → ∀ u, some u ∈ src.reads → rank u < rank t

/-- The per-cycle sources (the controllers) do not read targets. -/
def CycleSourcesReadNothing (g : Graph) : Prop :=
  ∀ src ∈ g.sources, src.region = none → src.reads = []

/-- The generators of the per-cycle sources do not look at the voice. -/
def CycleSourcesIgnoreVoice (g : Graph) : Prop :=
  ∀ src ∈ g.sources, src.region = none → ∀ v n bs, src.gen v n bs = src.gen none n bs

/-- What one connection contributes to a target at a frame: the source scaled by the depth, the depth
itself being modulated. -/
def contribution (cx : Ctx) (g : Graph) (mult : Bool) (V : Nat → Option Buf) (S : Nat → Buf)
    (c : Conn) (i : Nat) : ℚ :=
  let perVoice := (g.sources[c.source]?.bind (·.region)).isSome
  let depth := if perVoice then c.depth + cx.trigger * c.velToDepth else c.depth
  let scale := match c.depthMod.bind V with
    | none => depth
    | some m => if mult then depth * m i else depth + m i
  scale * S c.source i

/-- The connections which count for a voice: those of per-cycle sources and of the sources of its
region. -/
def counts (cx : Ctx) (g : Graph) (c : Conn) : Bool :=
  match g.sources[c.source]? with
  | none => false
  | some src => src.region == none || src.region == some cx.region

/-- `V` gives the values of the targets and `S` the values of the sources for a voice: every target of
the region of the voice is the sum, or the product, of the contributions of its sources; the other
targets have no value; a source is what its generator makes of the targets it reads. -/
structure Solves (g : Graph) (cx : Ctx) (V : Nat → Option Buf) (S : Nat → Buf) : Prop where
  target : ∀ t tgt, g.targets[t]? = some tgt → tgt.region = cx.region →
    V t = some (fun i =>
      let terms := (tgt.conns.filter (counts cx g)).map
        (fun c => contribution cx g tgt.multiplicative V S c i)
      if tgt.multiplicative then terms.prod else terms.sum)
  foreign : ∀ t tgt, g.targets[t]? = some tgt → tgt.region ≠ cx.region → V t = none
  invalid : ∀ t, g.targets[t]? = none → V t = none
  source : ∀ i src, g.sources[i]? = some src → (src.region = none ∨ src.region = some cx.region) →
    S i = src.gen (some cx.voice) 0
      (src.reads.map (fun u => u.bind V))

/-! ## The recursion ends -/

/-- Ready targets stay ready. -/
def Grows (s s' : State) : Prop := ∀ t, s.tgtReady t = true → s'.tgtReady t = true

theorem Grows.refl (s : State) : Grows s s := fun _ h => h

theorem Grows.trans {a b c : State} (h : Grows a b) (h' : Grows b c) : Grows a c :=
  fun t ht => h' t (h t ht)

/-- The number of targets which are not ready. -/
def unready (g : Graph) (s : State) : Nat :=
  (List.range g.targets.length).countP (fun t => !s.tgtReady t)

theorem unready_mono (g : Graph) {s s' : State} (h : Grows s s') : unready g s' ≤ unready g s := by
  apply List.countP_mono_left
  intro t _ ht
  cases hs : s.tgtReady t with
  | false => rfl
  | true => simp [h t hs] at ht

theorem unready_le (g : Graph) (s : State) : unready g s ≤ g.targets.length := by
  have := List.countP_le_length (p := fun t => !s.tgtReady t) (l := List.range g.targets.length)
  simpa [unready] using this

theorem countP_lt {p q : Nat → Bool} : ∀ (l : List Nat) (a : Nat), a ∈ l → (∀ x, q x = true → p x = true) →
    p a = true → q a = false → l.countP q < l.countP p
  | [], _, h, _, _, _ => by simp at h
  | x :: xs, a, h, hpq, hp, hq => by
    rcases List.mem_cons.1 h with rfl | h
    · have := List.countP_mono_left (l := xs) (p := q) (q := p) (fun y _ => hpq y)
      simp only [List.countP_cons, hp, hq, if_true]
      simp
      omega
    · have := countP_lt xs a h hpq hp hq
      simp only [List.countP_cons]
      have : (if q x = true then 1 else 0) ≤ (if p x = true then 1 else 0) := by
        by_cases hx : q x = true
        · simp [hx, hpq x hx]
        · simp [hx]
      omega

theorem unready_mark (g : Graph) (s : State) (t : Nat) (ht : t < g.targets.length)
    (hr : s.tgtReady t = false) : unready g (markTarget t s) < unready g s := by
  refine countP_lt _ t (by simpa using ht) (fun x hx => ?_) (by simp [hr]) (by simp [markTarget])
  by_cases hxt : x = t
  · subst hxt; simp [markTarget] at hx
  · simpa [markTarget, Function.update_of_ne hxt] using hx

/-- A recursive call which ends on every state with at most `n` targets to do. -/
def Total (g : Graph) (n : Nat) (rec : Rec) : Prop :=
  ∀ u s, unready g s ≤ n → ∃ b s', rec u s = some (b, s') ∧ Grows s s'

theorem readAll_total {g : Graph} {n : Nat} {rec : Rec} (H : Total g n rec) :
    ∀ (ts : List (Option Nat)) (s : State), unready g s ≤ n →
      ∃ bs s', readAll rec ts s = some (bs, s') ∧ Grows s s'
  | [], s, _ => ⟨[], s, rfl, Grows.refl s⟩
  | t :: ts, s, h => by
    obtain ⟨b, s₁, h₁, g₁⟩ := H t s h
    obtain ⟨bs, s₂, h₂, g₂⟩ := readAll_total H ts s₁ (le_trans (unready_mono g g₁) h)
    exact ⟨b :: bs, s₂, by simp [readAll, h₁, h₂], g₁.trans g₂⟩

theorem prepare_total {g : Graph} {n : Nat} {rec : Rec} (H : Total g n rec) (cx : Ctx) (i : Nat)
    (src : Source) (s : State) (h : unready g s ≤ n) :
    ∃ s', prepare rec cx i src s = some s' ∧ Grows s s' := by
  unfold prepare
  by_cases hr : s.srcReady i = true
  · exact ⟨s, by simp [hr], Grows.refl s⟩
  · obtain ⟨bs, s₁, h₁, g₁⟩ := readAll_total H src.reads s h
    exact ⟨generated cx i src bs s₁, by simp [hr, h₁], fun t ht => g₁ t ht⟩

theorem mixSource_total {g : Graph} {n : Nat} {rec : Rec} (H : Total g n rec) (cx : Ctx) (t : Nat)
    (mult first : Bool) (c : Conn) (src : Source) (s : State) (h : unready g s ≤ n) :
    ∃ s', mixSource rec cx t mult first c src s = some s' ∧ Grows s s' := by
  obtain ⟨s₁, h₁, g₁⟩ := prepare_total H cx c.source src s h
  obtain ⟨b, s₂, h₂, g₂⟩ := H c.depthMod s₁ (le_trans (unready_mono g g₁) h)
  exact ⟨writeTarget t (mixed mult first (sourceDepth cx src c) b (s₂.srcBuf c.source) (s₂.tgtBuf t)) s₂,
    by simp [mixSource, h₁, h₂], fun t ht => g₂ t (g₁ t ht)⟩

theorem connLoop_total {g : Graph} {n : Nat} {rec : Rec} (H : Total g n rec) (cx : Ctx) (t : Nat)
    (mult : Bool) : ∀ (cs : List Conn) (first : Bool) (s : State),
      (∀ c ∈ cs, c.source < g.sources.length) → unready g s ≤ n →
      ∃ b s', connLoop g rec cx t mult cs first s = some (b, s') ∧ Grows s s'
  | [], first, s, _, _ => ⟨first, s, rfl, Grows.refl s⟩
  | c :: cs, first, s, hc, h => by
    have hs : g.sources[c.source]? = some (g.sources[c.source]'(hc c (by simp))) := by
      simp [hc c (by simp)]
    have hcs : ∀ c ∈ cs, c.source < g.sources.length := fun c h => hc c (by simp [h])
    simp only [connLoop, hs]
    by_cases hu : useSource cx (g.sources[c.source]'(hc c (by simp))) = true
    · rw [if_pos hu]
      obtain ⟨s₁, h₁, g₁⟩ := mixSource_total H cx t mult first c
        (g.sources[c.source]'(hc c (by simp))) s h
      obtain ⟨b, s₂, h₂, g₂⟩ := connLoop_total H cx t mult cs false s₁ hcs
        (le_trans (unready_mono g g₁) h)
      exact ⟨b, s₂, by simp [h₁, h₂], g₁.trans g₂⟩
    · rw [if_neg hu]
      exact connLoop_total H cx t mult cs first s hcs h

theorem grows_fill (t : Nat) (mult first : Bool) (s : State) : Grows s (fillNeutral t mult first s) := by
  intro u hu
  unfold fillNeutral
  split
  · exact hu
  · exact hu

theorem grows_mark (t : Nat) (s : State) : Grows s (markTarget t s) := by
  intro u hu
  by_cases h : u = t
  · simp [markTarget, h]
  · simpa [markTarget, Function.update_of_ne h] using hu

theorem getMod_total (g : Graph) (hw : WellFormed g) (cx : Ctx) :
    ∀ n, Total g n (getMod g cx (n + 1))
  | n, none, s, _ => ⟨none, s, rfl, Grows.refl s⟩
  | n, some t, s, h => by
    cases ht : g.targets[t]? with
    | none => exact ⟨none, s, by simp [getMod, ht], Grows.refl s⟩
    | some tgt =>
      by_cases hr : cx.region ≠ tgt.region
      · exact ⟨none, s, by simp [getMod, ht, hr], Grows.refl s⟩
      by_cases hd : s.tgtReady t = true
      · exact ⟨some (s.tgtBuf t), s, by simp only [getMod, ht, if_neg hr, if_pos hd], Grows.refl s⟩
      have htl : t < g.targets.length := (List.getElem?_eq_some_iff.1 ht).1
      have hlt := unready_mark g s t htl (by simpa using hd)
      match n, h with
      | 0, h => omega
      | n + 1, h =>
        obtain ⟨b, s₁, h₁, g₁⟩ := connLoop_total (getMod_total g hw cx n) cx t tgt.multiplicative
          tgt.conns true (markTarget t s) (hw tgt (List.mem_of_getElem? ht)) (by omega)
        refine ⟨some ((fillNeutral t tgt.multiplicative b s₁).tgtBuf t), fillNeutral t tgt.multiplicative b s₁, ?_,
          ((grows_mark t s).trans g₁).trans (grows_fill t _ b s₁)⟩
        rw [getMod]
        simp only [ht, if_neg hr, if_neg hd, h₁]

/-! ## More depth does not change the result -/

/-- `rec'` agrees with `rec` wherever `rec` ends. -/
def Below (rec rec' : Rec) : Prop := ∀ u s r, rec u s = some r → rec' u s = some r

theorem readAll_below {rec rec' : Rec} (H : Below rec rec') : ∀ (ts : List (Option Nat)) (s : State) r,
    readAll rec ts s = some r → readAll rec' ts s = some r
  | [], s, r, h => h
  | t :: ts, s, r, h => by
    simp only [readAll] at h ⊢
    cases h₁ : rec t s with
    | none => simp [h₁] at h
    | some p =>
      obtain ⟨b, s₁⟩ := p
      rw [H t s _ h₁]
      simp only [h₁] at h
      cases h₂ : readAll rec ts s₁ with
      | none => simp [h₂] at h
      | some q =>
        obtain ⟨bs, s₂⟩ := q
        simp only [h₂] at h
        simp only [readAll_below H ts s₁ _ h₂]
        exact h

theorem prepare_below {rec rec' : Rec} (H : Below rec rec') (cx : Ctx) (i : Nat) (src : Source)
    (s : State) r (h : prepare rec cx i src s = some r) : prepare rec' cx i src s = some r := by
  unfold prepare at h ⊢
  by_cases hr : s.srcReady i = true
  · simpa [hr] using h
  · rw [if_neg hr] at h ⊢
    cases h₁ : readAll rec src.reads s with
    | none => simp [h₁] at h
    | some p => rw [readAll_below H _ _ _ h₁]; simpa [h₁] using h

theorem mixSource_below {rec rec' : Rec} (H : Below rec rec') (cx : Ctx) (t : Nat) (mult first : Bool)
    (c : Conn) (src : Source) (s : State) r (h : mixSource rec cx t mult first c src s = some r) :
    mixSource rec' cx t mult first c src s = some r := by
  unfold mixSource at h ⊢
  cases h₁ : prepare rec cx c.source src s with
  | none => simp [h₁] at h
  | some s₁ =>
    rw [prepare_below H _ _ _ _ _ h₁]
    simp only [h₁] at h ⊢
    cases h₂ : rec c.depthMod s₁ with
    | none => simp [h₂] at h
    | some p => rw [H _ _ _ h₂]; simpa [h₂] using h

theorem connLoop_below {g : Graph} {rec rec' : Rec} (H : Below rec rec') (cx : Ctx) (t : Nat)
    (mult : Bool) : ∀ (cs : List Conn) (first : Bool) (s : State) r,
      connLoop g rec cx t mult cs first s = some r → connLoop g rec' cx t mult cs first s = some r
  | [], _, _, _, h => h
  | c :: cs, first, s, r, h => by
    simp only [connLoop] at h ⊢
    cases hs : g.sources[c.source]? with
    | none => simp [hs] at h
    | some src =>
      simp only [hs] at h ⊢
      by_cases hu : useSource cx src = true
      · rw [if_pos hu] at h ⊢
        cases h₁ : mixSource rec cx t mult first c src s with
        | none => simp [h₁] at h
        | some s₁ =>
          rw [mixSource_below H _ _ _ _ _ _ _ _ h₁]
          simp only [h₁] at h ⊢
          exact connLoop_below H cx t mult cs false s₁ r h
      · rw [if_neg hu] at h ⊢
        exact connLoop_below H cx t mult cs first s r h

theorem getMod_below (g : Graph) (cx : Ctx) : ∀ n, Below (getMod g cx n) (getMod g cx (n + 1))
  | 0, _, _, _, h => by simp [getMod] at h
  | n + 1, none, s, r, h => by simpa [getMod] using h
  | n + 1, some t, s, r, h => by
    rw [getMod] at h ⊢
    cases ht : g.targets[t]? with
    | none => simpa [ht] using h
    | some tgt =>
      simp only [ht] at h ⊢
      by_cases hr : cx.region ≠ tgt.region
      · simpa [hr] using h
      by_cases hd : s.tgtReady t = true
      · simpa [hr, hd] using h
      simp only [if_neg hr, if_neg hd] at h ⊢
      cases h₁ : connLoop g (getMod g cx n) cx t tgt.multiplicative tgt.conns true (markTarget t s) with
      | none => simp [h₁] at h
      | some p =>
        rw [connLoop_below (getMod_below g cx n) _ _ _ _ _ _ _ h₁]
        simpa [h₁] using h

theorem getMod_stable (g : Graph) (cx : Ctx) (u : Option Nat) (s : State) (n : Nat) r
    (h : getMod g cx n u s = some r) : ∀ k, getMod g cx (n + k) u s = some r
  | 0 => h
  | k + 1 => getMod_below g cx (n + k) u s r (getMod_stable g cx u s n r h k)

end Verif.ModMatrix
