/-
C37: the evaluation of the modulation matrix.
-/
import Verif.ModMatrix.Value

namespace Verif.ModMatrix

/-! ## Termination -/

/-- C37, termination: on every well-formed graph, cyclic or not, from every state, `getModulation` ends:
its recursion never goes deeper than the number of targets, and allowing more depth changes nothing. -/
theorem modulation_terminates (g : Graph) (hw : WellFormed g) (cx : Ctx) (t : Option Nat) (s : State) :
    ∃ r, ∀ n, g.targets.length + 1 ≤ n → getMod g cx n t s = some r := by
  obtain ⟨b, s', h, _⟩ := getMod_total g hw cx g.targets.length t s (unready_le g s)
  refine ⟨(b, s'), fun n hn => ?_⟩
  obtain ⟨k, rfl⟩ := Nat.exists_eq_add_of_le hn
  exact getMod_stable g cx t s _ _ h k

/-- A graph with a cycle: the depth of the only connection is modulated by the target itself. -/
def loopGraph : Graph :=
  { sources := [{ region := some 0, gen := fun _ n _ _ => n + 2 }]
    targets := [{ region := 0, multiplicative := false, conns := [⟨0, 3, some 0, 0⟩] }] }

def blank : State :=
  { srcReady := fun _ => true, srcBuf := fun _ _ => 77, tgtReady := fun _ => true
    tgtBuf := fun _ _ => 5, log := [] }

example : WellFormed loopGraph := by
  intro tgt ht c hc
  simp only [loopGraph, List.mem_singleton] at ht
  subst ht
  simp only [List.mem_singleton] at hc
  subst hc
  decide

/-! ## The block -/

theorem mem_sourcesOf (g : Graph) (r : Option Nat) (i : Nat) :
    i ∈ sourcesOf g r ↔ ∃ src, g.sources[i]? = some src ∧ src.region = r := by
  unfold sourcesOf
  simp only [List.mem_filter, List.mem_range, beq_iff_eq, Option.map_eq_some_iff]
  constructor
  · rintro ⟨_, src, h, h'⟩; exact ⟨src, h, h'⟩
  · rintro ⟨src, h, h'⟩
    exact ⟨(List.getElem?_eq_some_iff.1 h).1, src, h, h'⟩

theorem mem_targetsOf (g : Graph) (r : Nat) (t : Nat) :
    t ∈ targetsOf g r ↔ ∃ tgt, g.targets[t]? = some tgt ∧ tgt.region = r := by
  unfold targetsOf
  simp only [List.mem_filter, List.mem_range, beq_iff_eq, Option.map_eq_some_iff]
  constructor
  · rintro ⟨_, src, h, h'⟩; exact ⟨src, h, h'⟩
  · rintro ⟨src, h, h'⟩
    exact ⟨(List.getElem?_eq_some_iff.1 h).1, src, h, h'⟩

theorem nodup_sourcesOf (g : Graph) (r : Option Nat) : (sourcesOf g r).Nodup :=
  List.Nodup.filter _ List.nodup_range

theorem runs_discard (v : Option Nat) : ∀ (l : List Nat) (s : State) (i : Nat) (w : Option Nat), l.Nodup →
    runs (discardAll v l s) i w =
      runs s i w + if i ∈ l ∧ w = v ∧ s.srcReady i = false then 1 else 0
  | [], s, i, w, _ => by simp [discardAll]
  | j :: l, s, i, w, hn => by
    have hj : j ∉ l := (List.nodup_cons.1 hn).1
    have hl := (List.nodup_cons.1 hn).2
    by_cases hr : s.srcReady j = true
    · rw [discardAll, if_pos hr, runs_discard v l s i w hl]
      by_cases hij : i = j
      · subst hij; simp [hj, hr]
      · simp [hij]
    · rw [discardAll, if_neg hr, runs_discard v l _ i w hl]
      have hrun : runs { s with log := s.log ++ [⟨j, v, false⟩] } i w =
          runs s i w + if j = i ∧ v = w then 1 else 0 := by
        simp [runs, List.countP_append, List.countP_cons]
      rw [hrun]
      have hr' : s.srcReady j = false := by simpa using hr
      by_cases hij : i = j
      · subst hij
        simp [hj, hr', eq_comm]
      · have : ¬ (j = i ∧ v = w) := fun h => hij h.1.symm
        simp [hij, this]

theorem discard_ready (v : Option Nat) : ∀ (l : List Nat) (s : State),
    (discardAll v l s).srcReady = s.srcReady ∧ (discardAll v l s).srcBuf = s.srcBuf
  | [], _ => ⟨rfl, rfl⟩
  | j :: l, s => by
    rw [discardAll]
    split
    · exact discard_ready v l s
    · exact discard_ready v l _

/-- The state between the voices of a block: what the per-cycle sources have, and which generators ran
for which voices. -/
structure Cycle (g : Graph) (G : Nat → Buf) (done : List Ctx) (s : State) : Prop where
  buf : ∀ i src, g.sources[i]? = some src → src.region = none → s.srcReady i = true → s.srcBuf i = G i
  cnt : ∀ i src, g.sources[i]? = some src → src.region = none →
    runs s i none = if s.srcReady i then 1 else 0
  fresh : ∀ i v, (∀ cx ∈ done, cx.voice ≠ v) → runs s i (some v) = 0
  past : ∀ cx ∈ done, ∀ i src, g.sources[i]? = some src →
    runs s i (some cx.voice) = if src.region = some cx.region then 1 else 0

theorem requests_right {g : Graph} {cx : Ctx} {rank : Nat → Nat} {V : Nat → Option Buf} {S : Nat → Buf}
    (hw : WellFormed g) (hR : Ranked g rank) (hS : Solves g cx V S) :
    ∀ (us : List (Option Nat)) (s : State), (∀ k, Inv g cx rank V S k s) →
      ∃ s', requests g cx us s = some (us.map (fun u => u.bind V), s') ∧
        (∀ k, Inv g cx rank V S k s') ∧ ∃ k, Fr g cx rank k s s'
  | [], s, hI => ⟨s, rfl, hI, 0, Fr.refl _ _⟩
  | u :: us, s, hI => by
    obtain ⟨b, s₁, h₁, _⟩ := getMod_total g hw cx g.targets.length u s (unready_le g s)
    have key : b = u.bind V ∧ (∀ k, Inv g cx rank V S k s₁) ∧ ∃ k, Fr g cx rank k s s₁ := by
      cases u with
      | none =>
        simp only [getMod, Option.some.injEq, Prod.mk.injEq] at h₁
        obtain ⟨rfl, rfl⟩ := h₁
        exact ⟨rfl, hI, 0, Fr.refl _ _⟩
      | some t =>
        have H := getMod_right hR hS (g.targets.length + 1) (rank t + 1)
        have := fun k hk => H.yes t s b s₁ (Nat.lt_succ_self _) h₁ k hk (hI k)
        refine ⟨(this _ (Nat.lt_succ_self _)).1, fun k => ?_, _, (this _ (Nat.lt_succ_self _)).2.2⟩
        exact (this (max k (rank t + 1)) (lt_of_lt_of_le (Nat.lt_succ_self _) (le_max_right _ _))).2.1.weaken
          (le_max_left _ _)
    obtain ⟨e, hI₁, k₁, hf₁⟩ := key
    obtain ⟨s₂, h₂, hI₂, k₂, hf₂⟩ := requests_right hw hR hS us s₁ hI₁
    refine ⟨s₂, ?_, hI₂, max k₁ k₂, (hf₁.weaken (le_max_left _ _)).trans (hf₂.weaken (le_max_right _ _))⟩
    simp only [requests, getModulation, h₁, h₂, e, List.map_cons]

/-- The values of the per-cycle sources. -/
def cycleValue (g : Graph) (i : Nat) : Buf :=
  match g.sources[i]? with
  | none => fun _ => 0
  | some src => src.gen none 0 []

theorem used_iff {g : Graph} {cx : Ctx} {i : Nat} {src : Source} (h : g.sources[i]? = some src) :
    Used g cx i src ↔ src.region = none ∨ src.region = some cx.region := by
  unfold Used useSource
  simp only [h, true_and]
  cases hreg : src.region with
  | none => simp
  | some r =>
    simp only [reduceCtorEq, Option.some.injEq, false_or, beq_iff_eq]
    exact eq_comm

theorem voice_right {g : Graph} {cx : Ctx} {rank : Nat → Nat} {V : Nat → Option Buf} {S : Nat → Buf}
    (hw : WellFormed g) (hR : Ranked g rank) (hN : CycleSourcesReadNothing g) (hB : CycleSourcesIgnoreVoice g)
    (hS : Solves g cx V S)
    (asks : List (Option Nat)) (done : List Ctx) (hv : ∀ c ∈ done, c.voice ≠ cx.voice) (s : State)
    (hC : Cycle g (cycleValue g) done s) :
    ∃ s', voice g cx asks s = some (asks.map (fun u => u.bind V), s') ∧
      Cycle g (cycleValue g) (done ++ [cx]) s' := by
  have hSg : ∀ i src, g.sources[i]? = some src → src.region = none → S i = cycleValue g i := by
    intro i src hi hr
    rw [hS.source i src hi (Or.inl hr)]
    simp [cycleValue, hi, hN src (List.mem_of_getElem? hi) hr, 
      hB src (List.mem_of_getElem? hi) hr (some cx.voice)]
  have hr0 : ∀ i v, runs (beginVoice g cx s) i v = runs s i v := fun _ _ => rfl
  have hglob : ∀ i src, g.sources[i]? = some src → src.region = none →
      (beginVoice g cx s).srcReady i = s.srcReady i := by
    intro i src hi hr
    have : i ∉ sourcesOf g (some cx.region) := by
      intro h
      obtain ⟨src', h', h''⟩ := (mem_sourcesOf _ _ _).1 h
      obtain rfl : src = src' := Option.some.inj (hi.symm.trans h')
      rw [hr] at h''; simp at h''
    simp [beginVoice, this]
  have hloc : ∀ i src, g.sources[i]? = some src → src.region = some cx.region →
      (beginVoice g cx s).srcReady i = false := by
    intro i src hi hr
    have : i ∈ sourcesOf g (some cx.region) := (mem_sourcesOf _ _ _).2 ⟨src, hi, hr⟩
    simp [beginVoice, this]
  have hI : ∀ k, Inv g cx rank V S k (beginVoice g cx s) := by
    intro k
    refine ⟨?_, ?_, ?_⟩
    · intro t tgt h₁ h₂ _ h₄
      have : t ∈ targetsOf g cx.region := (mem_targetsOf _ _ _).2 ⟨tgt, h₁, h₂⟩
      simp [beginVoice, this] at h₄
    · intro i src hu hready
      rcases (used_iff hu.1).1 hu with hr | hr
      · rw [hglob i src hu.1 hr] at hready
        rw [hSg i src hu.1 hr]
        exact hC.buf i src hu.1 hr hready
      · rw [hloc i src hu.1 hr] at hready; simp at hready
    · intro i src hu
      rw [hr0]
      rcases (used_iff hu.1).1 hu with hr | hr
      · rw [hglob i src hu.1 hr]
        simp only [voiceKey, hr]
        simpa using hC.cnt i src hu.1 hr
      · rw [hloc i src hu.1 hr]
        simp only [voiceKey, hr]
        simpa using hC.fresh i cx.voice hv
  obtain ⟨s₁, h₁, hI₁, k, hf⟩ := requests_right hw hR hS asks _ hI
  have hnd := nodup_sourcesOf g (some cx.region)
  refine ⟨endVoice g cx s₁, by simp [voice, h₁], ⟨?_, ?_, ?_, ?_⟩⟩
  · intro i src hi hr hready
    have hd := discard_ready (some cx.voice) (sourcesOf g (some cx.region)) s₁
    rw [endVoice, hd.1] at hready
    rw [endVoice, hd.2]
    rw [(hI₁ 0).buf i src ((used_iff hi).2 (Or.inl hr)) hready]
    exact hSg i src hi hr
  · intro i src hi hr
    rw [endVoice, runs_discard _ _ _ _ _ hnd, (discard_ready _ _ _).1]
    have := (hI₁ 0).cnt i src ((used_iff hi).2 (Or.inl hr))
    simp only [voiceKey, hr] at this
    simpa using this
  · intro i v hnot
    have hvc : v ≠ cx.voice := fun h => hnot cx (by simp) h.symm
    rw [endVoice, runs_discard _ _ _ _ _ hnd]
    have : ¬ (some v = some cx.voice) := by simpa using hvc
    simp only [this, false_and, and_false, if_false, Nat.add_zero]
    rw [hf.other i (some v), hr0]
    · exact hC.fresh i v (fun c hc => hnot c (by simp [hc]))
    · intro src _
      unfold voiceKey
      split
      · simpa using hvc
      · simp
  · intro c hc i src hi
    rw [endVoice, runs_discard _ _ _ _ _ hnd]
    rcases List.mem_append.1 hc with hc | hc
    · have hne : ¬ (some c.voice = some cx.voice) := by simpa using hv c hc
      simp only [hne, false_and, and_false, if_false, Nat.add_zero]
      rw [hf.other i (some c.voice), hr0]
      · exact hC.past c hc i src hi
      · intro src _
        unfold voiceKey
        split
        · exact hne
        · simp
    · obtain rfl : c = cx := by simpa using hc
      by_cases hr : src.region = some c.region
      · have hu : Used g c i src := (used_iff hi).2 (Or.inr hr)
        have hm : i ∈ sourcesOf g (some c.region) := (mem_sourcesOf _ _ _).2 ⟨src, hi, hr⟩
        have hcnt := (hI₁ 0).cnt i src hu
        simp only [voiceKey, hr, Option.isSome_some, if_true] at hcnt
        rw [hcnt]
        simp only [hm, true_and, hr, if_true]
        cases s₁.srcReady i <;> simp
      · have hm : i ∉ sourcesOf g (some c.region) := by
          intro h
          obtain ⟨src', h', h''⟩ := (mem_sourcesOf _ _ _).1 h
          obtain rfl : src = src' := Option.some.inj (hi.symm.trans h')
          exact hr h''
        simp only [hm, false_and, if_false, Nat.add_zero, hr]
        rw [hf.other i (some c.voice), hr0]
        · exact hC.fresh i c.voice hv
        · intro src' hu'
          obtain rfl : src = src' := Option.some.inj (hi.symm.trans hu'.1)
          unfold voiceKey
          rcases (used_iff hi).1 hu' with h | h
          · simp [h]
          · exact absurd h hr

theorem voices_right {g : Graph} {rank : Nat → Nat} {V : Ctx → Nat → Option Buf} {S : Ctx → Nat → Buf}
    (hw : WellFormed g) (hR : Ranked g rank) (hN : CycleSourcesReadNothing g) (hB : CycleSourcesIgnoreVoice g) :
    ∀ (vs : List (Ctx × List (Option Nat))) (done : List Ctx) (s : State),
      (∀ v ∈ vs, Solves g v.1 (V v.1) (S v.1)) →
      ((done ++ vs.map (·.1)).map Ctx.voice).Nodup →
      Cycle g (cycleValue g) done s →
      ∃ s', voices g vs s = some (vs.map (fun v => v.2.map (fun u => u.bind (V v.1))), s') ∧
        Cycle g (cycleValue g) (done ++ vs.map (·.1)) s'
  | [], done, s, _, _, hC => ⟨s, rfl, by simpa using hC⟩
  | (cx, asks) :: vs, done, s, hS, hd, hC => by
    have hfresh : ∀ c ∈ done, c.voice ≠ cx.voice := by
      intro c hc heq
      simp only [List.map_append, List.map_cons, List.nodup_append] at hd
      exact hd.2.2 c.voice (List.mem_map_of_mem hc) cx.voice (by simp) heq
    obtain ⟨s₁, h₁, hC₁⟩ := voice_right hw hR hN hB (hS (cx, asks) (by simp)) asks done hfresh s hC
    obtain ⟨s₂, h₂, hC₂⟩ := voices_right hw hR hN hB vs (done ++ [cx]) s₁
      (fun v hv => hS v (by simp [hv])) (by simpa using hd) hC₁
    refine ⟨s₂, ?_, by simpa using hC₂⟩
    simp [voices, h₁, h₂]

/-- C37: on a graph without cycles, in every block, for every list of voices and every list of requests
of each voice, from every state left by the past: each request is answered by the value of the target
given by the equations of the graph (sum or product of the sources scaled by their depths, neutral when
there are none), whatever was asked before; every per-cycle source is generated or discarded exactly once
in the block; and for every voice every source of its region exactly once, and no other source.
Missing: graphs with cycles (`generated_once_violated`; for these see `modulation_terminates`), and per-cycle
sources that look at the voice (`shared_pressure_violated`). -/
theorem modulation_values_partial (g : Graph) (hw : WellFormed g) (rank : Nat → Nat) (hR : Ranked g rank)
    (hN : CycleSourcesReadNothing g) (hB : CycleSourcesIgnoreVoice g)
    (V : Ctx → Nat → Option Buf) (S : Ctx → Nat → Buf)
    (vs : List (Ctx × List (Option Nat))) (hS : ∀ v ∈ vs, Solves g v.1 (V v.1) (S v.1))
    (hd : (vs.map (·.1.voice)).Nodup) (s : State) :
    ∃ s', block g vs s = some (vs.map (fun v => v.2.map (fun u => u.bind (V v.1))), s') ∧
      (∀ i src, g.sources[i]? = some src → src.region = none →
        (s'.log.filter (fun e => e.source = i ∧ e.voice = none)).length = 1) ∧
      ∀ v ∈ vs, ∀ i src, g.sources[i]? = some src →
        (s'.log.filter (fun e => e.source = i ∧ e.voice = some v.1.voice)).length =
          if src.region = some v.1.region then 1 else 0 := by
  have hC : Cycle g (cycleValue g) [] (beginCycle g s) := by
    refine ⟨?_, ?_, ?_, by simp⟩
    · intro i src hi hr hready
      have : i ∈ sourcesOf g none := (mem_sourcesOf _ _ _).2 ⟨src, hi, hr⟩
      simp [beginCycle, this] at hready
    · intro i src hi hr
      have : i ∈ sourcesOf g none := (mem_sourcesOf _ _ _).2 ⟨src, hi, hr⟩
      simp [beginCycle, this, runs]
    · intro i v _
      simp [beginCycle, runs]
  obtain ⟨s₁, h₁, hC₁⟩ := voices_right (V := V) (S := S) hw hR hN hB vs [] _ hS
    (by rw [List.nil_append, List.map_map]; exact hd) hC
  have hrun : ∀ s i v, (State.log s |>.filter (fun e => e.source = i ∧ e.voice = v)).length = runs s i v := by
    intro s i v
    rw [← List.countP_eq_length_filter]
    unfold runs
    apply List.countP_congr
    intro e _
    simp
  have hnd := nodup_sourcesOf g none
  refine ⟨endCycle g s₁, by simp [block, h₁], ?_, ?_⟩
  · intro i src hi hr
    rw [hrun, endCycle, runs_discard _ _ _ _ _ hnd, hC₁.cnt i src hi hr]
    have : i ∈ sourcesOf g none := (mem_sourcesOf _ _ _).2 ⟨src, hi, hr⟩
    simp only [this, true_and]
    cases s₁.srcReady i <;> simp
  · intro v hv i src hi
    rw [hrun, endCycle, runs_discard _ _ _ _ _ hnd]
    simp only [reduceCtorEq, false_and, and_false, if_false, Nat.add_zero]
    exact hC₁.past v.1 (by simpa using ⟨_, hv⟩) i src hi

/-! ### The equations have a solution -/

/-- The values down to a depth. -/
def valueTo (g : Graph) (cx : Ctx) : Nat → Nat → Option Buf
  | 0, _ => none
  | n + 1, t =>
    match g.targets[t]? with
    | none => none
    | some tgt =>
      if tgt.region = cx.region then
        some (fun i =>
          let terms := (tgt.conns.filter (counts cx g)).map (fun c =>
            contribution cx g tgt.multiplicative (valueTo g cx n) (fun j =>
              match g.sources[j]? with
              | none => fun _ => 0
              | some src => src.gen (some cx.voice) 0
                  (src.reads.map (fun u => u.bind (valueTo g cx n)))) c i)
          if tgt.multiplicative then terms.prod else terms.sum)
      else none

theorem contribution_congr {g : Graph} {cx : Ctx} {mult : Bool} {V V' : Nat → Option Buf}
    {S S' : Nat → Buf} {c : Conn} {i : Nat} (hV : c.depthMod.bind V = c.depthMod.bind V')
    (hS : S c.source = S' c.source) :
    contribution cx g mult V S c i = contribution cx g mult V' S' c i := by
  simp only [contribution, hV, hS]

theorem bind_congr' {V V' : Nat → Option Buf} {u : Option Nat} (h : ∀ w, u = some w → V w = V' w) :
    u.bind V = u.bind V' := by
  cases u with
  | none => rfl
  | some w => exact h w rfl

theorem valueTo_stable (g : Graph) (cx : Ctx) (rank : Nat → Nat) (hR : Ranked g rank) :
    ∀ n m t, rank t < n → rank t < m → valueTo g cx n t = valueTo g cx m t
  | 0, _, _, h, _ => by omega
  | _ + 1, 0, _, _, h => by omega
  | n + 1, m + 1, t, hn, hm => by
    rw [valueTo, valueTo]
    cases ht : g.targets[t]? with
    | none => rfl
    | some tgt =>
      simp only
      by_cases hr : tgt.region = cx.region
      · rw [if_pos hr, if_pos hr]
        congr 1
        funext i
        have : ∀ c ∈ tgt.conns.filter (counts cx g), _ := fun c hc =>
          contribution_congr (g := g) (cx := cx) (mult := tgt.multiplicative) (V := valueTo g cx n)
            (V' := valueTo g cx m) (c := c) (i := i)
            (S := fun j =>
              match g.sources[j]? with
              | none => fun _ => 0
              | some src => src.gen (some cx.voice) 0
                  (src.reads.map (fun u => u.bind (valueTo g cx n))))
            (S' := fun j =>
              match g.sources[j]? with
              | none => fun _ => 0
              | some src => src.gen (some cx.voice) 0
                  (src.reads.map (fun u => u.bind (valueTo g cx m))))
            (bind_congr' (fun w hw => valueTo_stable g cx rank hR n m w
              (by have := (hR t tgt ht c (List.mem_of_mem_filter hc)).1 w hw; omega)
              (by have := (hR t tgt ht c (List.mem_of_mem_filter hc)).1 w hw; omega)))
            (by
              cases hs : g.sources[c.source]? with
              | none => simp only [hs]
              | some src =>
                simp only [hs]
                congr 1
                apply List.map_congr_left
                intro u hu
                apply bind_congr'
                intro w hw
                subst hw
                have := (hR t tgt ht c (List.mem_of_mem_filter hc)).2 src hs w hu
                exact valueTo_stable g cx rank hR n m w (by omega) (by omega))
        rw [List.map_congr_left this]
      · rw [if_neg hr, if_neg hr]

/-- C37: the equations of a graph without cycles have a solution (so that `modulation_values_partial` applies to
every such graph). -/
theorem values_exist (g : Graph) (rank : Nat → Nat) (hR : Ranked g rank) (cx : Ctx) :
    ∃ V S, Solves g cx V S := by
  refine ⟨fun t => valueTo g cx (rank t + 1) t, fun j =>
    match g.sources[j]? with
    | none => fun _ => 0
    | some src => src.gen (some cx.voice) 0
        (src.reads.map (fun u => u.bind (fun t => valueTo g cx (rank t + 1) t))), ?_, ?_, ?_, ?_⟩
  · intro t tgt ht hr
    have hst : ∀ w, rank w < rank t → valueTo g cx (rank t) w = valueTo g cx (rank w + 1) w :=
      fun w hw => valueTo_stable g cx rank hR _ _ w hw (Nat.lt_succ_self _)
    show valueTo g cx (rank t + 1) t = _
    rw [valueTo, ht]
    simp only [if_pos hr]
    congr 1
    funext i
    refine congrArg (fun l : List ℚ => if tgt.multiplicative then l.prod else l.sum) ?_
    apply List.map_congr_left
    intro c hc
    have hcm := hR t tgt ht c (List.mem_of_mem_filter hc)
    apply contribution_congr
    · exact bind_congr' (fun w hw => hst w (hcm.1 w hw))
    · cases hs : g.sources[c.source]? with
      | none => simp only [hs]
      | some src =>
        simp only [hs]
        congr 1
        apply List.map_congr_left
        intro u hu
        apply bind_congr'
        intro w hw
        subst hw
        exact hst w (hcm.2 src hs w hu)
  · intro t tgt ht hr
    show valueTo g cx (rank t + 1) t = none
    rw [valueTo, ht]
    simp [hr]
  · intro t ht
    show valueTo g cx (rank t + 1) t = none
    rw [valueTo, ht]
  · intro i src hi _
    simp only [hi]

/-! ### Example -/

/-- An instrument: a controller (source 0) and an LFO of region 0 (source 1), which reads its frequency
(target 1), a sum over the controller; the volume (target 0) is a sum of the LFO, with depth 2 modulated
by target 2, and of the controller with depth 3; target 2 is the controller scaled by 10. -/
def sample : Graph :=
  { sources := [{ region := none, gen := fun _ n _ i => n + i + 1 },
      { region := some 0, reads := [none, some 1]
        gen := fun _ n ins i => 100 * n + (match ins with | [none, some b] => b i | _ => -1) }]
    targets := [⟨0, false, [⟨1, 2, some 2, 1⟩, ⟨0, 3, none, 0⟩]⟩, ⟨0, false, [⟨0, 7, none, 0⟩]⟩,
      ⟨0, false, [⟨0, 10, none, 0⟩]⟩] }

example : Ranked sample (fun t => if t = 0 then 1 else 0) := by
  intro t tgt ht c hc
  match t with
  | 0 =>
    obtain rfl : _ = tgt := Option.some.inj ht
    simp only [List.mem_cons, List.not_mem_nil, or_false] at hc
    rcases hc with rfl | rfl
    · refine ⟨fun u hu => ?_, fun src hs u hu => ?_⟩
      · obtain rfl : 2 = u := Option.some.inj hu
        decide
      · obtain rfl : _ = src := Option.some.inj hs
        simp at hu; subst hu; decide
    · refine ⟨fun u hu => by simp at hu, fun src hs u hu => ?_⟩
      obtain rfl : _ = src := Option.some.inj hs
      simp at hu
  | 1 =>
    obtain rfl : _ = tgt := Option.some.inj ht
    simp only [List.mem_singleton] at hc
    subst hc
    refine ⟨fun u hu => by simp at hu, fun src hs u hu => ?_⟩
    obtain rfl : _ = src := Option.some.inj hs
    simp at hu
  | 2 =>
    obtain rfl : _ = tgt := Option.some.inj ht
    simp only [List.mem_singleton] at hc
    subst hc
    refine ⟨fun u hu => by simp at hu, fun src hs u hu => ?_⟩
    obtain rfl : _ = src := Option.some.inj hs
    simp at hu
  | n + 3 => simp [sample] at ht

example : CycleSourcesReadNothing sample ∧ CycleSourcesIgnoreVoice sample := by
  refine ⟨fun src hs hr => ?_, fun src hs hr v n bs => ?_⟩ <;>
    simp only [sample, List.mem_cons, List.not_mem_nil, or_false] at hs <;> rcases hs with rfl | rfl
  · rfl
  · simp at hr
  · rfl
  · simp at hr

example : WellFormed sample := by
  intro tgt ht c hc
  simp only [sample, List.mem_cons, List.not_mem_nil, or_false] at ht
  rcases ht with rfl | rfl | rfl <;> simp at hc <;> (try rcases hc with rfl | rfl) <;>
    decide

/-- Two voices of region 0, with trigger values 1 and 0, asking for the volume twice: at frame 4, the
controller is 5, the LFO is 35, target 2 is 50, and the volume is `(2 + 1 + 50) * 35 + 3 * 5`. -/
example : (block sample [(⟨7, 0, 1⟩, [some 0, some 1, some 0]), (⟨8, 0, 0⟩, [some 0, some 9, none])]
      blank).map (fun r => (r.1.map (fun l => l.map (fun b => b.map (fun f => f 4))), r.2.log)) =
    some ([[some 1870, some 35, some 1870], [some 1835, none, none]],
      [⟨0, none, true⟩, ⟨1, some 7, true⟩, ⟨1, some 8, true⟩]) := by decide +kernel

/-! ### A source whose own generation depends on it -/

/-- An LFO whose frequency is modulated by itself. -/
def selfGraph : Graph :=
  { sources := [{ region := some 0, reads := [some 0], gen := fun _ n _ _ => n + 2 }]
    targets := [⟨0, false, [⟨0, 1, none, 0⟩]⟩] }

example : (getModulation selfGraph ⟨7, 0, 1⟩ (some 0) (beginVoice selfGraph ⟨7, 0, 1⟩ blank)).isSome =
    true := by decide +kernel

/-- C37 does not extend to cyclic graphs: asking an LFO whose frequency target it modulates itself for
another target it is connected to generates it twice in the block, because a source is marked ready only
after its generator has returned. -/
theorem generated_once_violated :
    ∃ g : Graph, WellFormed g ∧ ∃ r, block g [(⟨7, 0, 1⟩, [some 1])] blank = some r ∧
      (r.2.log.filter (fun e => e.source = 0 ∧ e.voice = some 7)).length = 2 := by
  refine ⟨{ sources := [{ region := some 0, reads := [some 0], gen := fun _ n _ _ => n + 2 }]
            targets := [⟨0, false, [⟨0, 1, none, 0⟩]⟩, ⟨0, false, [⟨0, 1, none, 0⟩]⟩] }, ?_, ?_⟩
  · intro tgt ht c hc
    simp only [List.mem_cons, List.not_mem_nil, or_false] at ht
    rcases ht with rfl | rfl <;> simp at hc <;> subst hc <;> decide
  · refine ⟨_, rfl, ?_⟩
    decide +kernel

/-! ### A per-cycle source that looks at the voice -/

/-- The pressure on the keys as controller 130: a per-cycle source (`ccModulationIsPerVoice` does not list it,
SfzHelpers.h:268-283), whose generator looks up the key of the voice it is called for (Controller.cpp:108-117).
The key of voice 7 is pressed with force 1, the key of voice 8 is not. -/
def pressureGraph : Graph :=
  { sources := [{ region := none, gen := fun v _ _ _ => if v = some 7 then 1 else 0 }]
    targets := [⟨0, false, [⟨0, 1, none, 0⟩]⟩] }

/-- C37 does not hold with controller 130: the second voice of a block gets the pressure of the key of the first one. -/
theorem shared_pressure_violated :
    WellFormed pressureGraph ∧ Ranked pressureGraph (fun _ => 0) ∧ CycleSourcesReadNothing pressureGraph ∧
      (∀ V S, Solves pressureGraph ⟨8, 0, 1⟩ V S → ∃ b, V 0 = some b ∧ b 0 = 0) ∧
      (block pressureGraph [(⟨7, 0, 1⟩, [some 0]), (⟨8, 0, 1⟩, [some 0])] blank).map
        (fun r => r.1.map (fun l => l.map (fun b => b.map (fun f => f 0)))) = some [[some 1], [some 1]] := by
  refine ⟨?_, ?_, ?_, ?_, by decide +kernel⟩
  · intro tgt ht c hc
    simp only [pressureGraph, List.mem_cons, List.not_mem_nil, or_false] at ht
    subst ht
    simp at hc
    subst hc
    decide
  · intro t tgt ht c hc
    match t with
    | 0 =>
      obtain rfl : _ = tgt := Option.some.inj ht
      simp only [List.mem_singleton] at hc
      subst hc
      refine ⟨fun u hu => by simp at hu, fun src hs u hu => ?_⟩
      obtain rfl : _ = src := Option.some.inj hs
      simp at hu
    | n + 1 => simp [pressureGraph] at ht
  · intro src hs _
    simp only [pressureGraph, List.mem_cons, List.not_mem_nil, or_false] at hs
    subst hs; rfl
  · intro V S h
    have hs := h.source 0 _ rfl (Or.inl rfl)
    refine ⟨_, h.target 0 _ rfl rfl, ?_⟩
    simp [counts, contribution, pressureGraph, hs]

end Verif.ModMatrix
