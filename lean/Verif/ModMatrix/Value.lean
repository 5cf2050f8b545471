/-
On a graph without cycles, the evaluation computes the solution of the equations of the graph and runs
every generator at most once.
-/
import Verif.ModMatrix.Lemmas

namespace Verif.ModMatrix

section
variable (g : Graph) (cx : Ctx) (rank : Nat → Nat) (V : Nat → Option Buf) (S : Nat → Buf)

/-- A source which counts for the voice. -/
def Used (i : Nat) (src : Source) : Prop :=
  g.sources[i]? = some src ∧ useSource cx src = true

/-- The state is consistent with the solution for the targets of rank less than `k`. -/
structure Inv (k : Nat) (s : State) : Prop where
  tgt : ∀ t tgt, g.targets[t]? = some tgt → tgt.region = cx.region → rank t < k →
    s.tgtReady t = true → V t = some (s.tgtBuf t)
  buf : ∀ i src, Used g cx i src → s.srcReady i = true → s.srcBuf i = S i
  cnt : ∀ i src, Used g cx i src →
    runs s i (voiceKey cx src) = if s.srcReady i then 1 else 0

/-- What an evaluation below rank `k` leaves alone. -/
structure Fr (k : Nat) (s s' : State) : Prop where
  tgt : ∀ t, k ≤ rank t → s'.tgtReady t = s.tgtReady t ∧ s'.tgtBuf t = s.tgtBuf t
  src : ∀ i src u, g.sources[i]? = some src → some u ∈ src.reads → k ≤ rank u + 1 →
    s'.srcReady i = s.srcReady i ∧ s'.srcBuf i = s.srcBuf i ∧ ∀ v, runs s' i v = runs s i v
  mono : ∀ i, s.srcReady i = true → s'.srcReady i = true
  other : ∀ i v, (∀ src, Used g cx i src → v ≠ voiceKey cx src) →
    runs s' i v = runs s i v
  flag : ∀ i, (∀ src, ¬ Used g cx i src) → s'.srcReady i = s.srcReady i ∧ s'.srcBuf i = s.srcBuf i

variable {g cx rank V S}

theorem Fr.refl (k : Nat) (s : State) : Fr g cx rank k s s :=
  ⟨fun _ _ => ⟨rfl, rfl⟩, fun _ _ _ _ _ _ => ⟨rfl, rfl, fun _ => rfl⟩, fun _ h => h, fun _ _ _ => rfl,
    fun _ _ => ⟨rfl, rfl⟩⟩

theorem Fr.trans {k : Nat} {a b c : State} (h : Fr g cx rank k a b) (h' : Fr g cx rank k b c) :
    Fr g cx rank k a c where
  tgt t ht := ⟨(h'.tgt t ht).1.trans (h.tgt t ht).1, (h'.tgt t ht).2.trans (h.tgt t ht).2⟩
  src i src u hi hu hk := by
    obtain ⟨a₁, a₂, a₃⟩ := h.src i src u hi hu hk
    obtain ⟨b₁, b₂, b₃⟩ := h'.src i src u hi hu hk
    exact ⟨b₁.trans a₁, b₂.trans a₂, fun v => (b₃ v).trans (a₃ v)⟩
  mono i hi := h'.mono i (h.mono i hi)
  other i v hv := (h'.other i v hv).trans (h.other i v hv)
  flag i hi := ⟨(h'.flag i hi).1.trans (h.flag i hi).1, (h'.flag i hi).2.trans (h.flag i hi).2⟩

theorem Fr.weaken {k K : Nat} {a b : State} (h : Fr g cx rank k a b) (hk : k ≤ K) :
    Fr g cx rank K a b where
  tgt t ht := h.tgt t (le_trans hk ht)
  src i src u hi hu hK := h.src i src u hi hu (le_trans hk hK)
  mono := h.mono
  other := h.other
  flag := h.flag

theorem Inv.weaken {k K : Nat} {s : State} (h : Inv g cx rank V S K s) (hk : k ≤ K) :
    Inv g cx rank V S k s where
  tgt t tgt h₁ h₂ h₃ := h.tgt t tgt h₁ h₂ (lt_of_lt_of_le h₃ hk)
  buf := h.buf
  cnt := h.cnt

theorem Inv.upgrade {k K : Nat} {s s' : State} (h : Inv g cx rank V S K s) (h' : Inv g cx rank V S k s')
    (hf : Fr g cx rank k s s') : Inv g cx rank V S K s' where
  tgt t tgt h₁ h₂ h₃ h₄ := by
    by_cases hk : rank t < k
    · exact h'.tgt t tgt h₁ h₂ hk h₄
    · obtain ⟨a, b⟩ := hf.tgt t (by omega)
      rw [b]; rw [a] at h₄; exact h.tgt t tgt h₁ h₂ h₃ h₄
  buf := h'.buf
  cnt := h'.cnt

/-- A recursive call which is right on the targets of rank less than `n`. -/
structure Right (g : Graph) (cx : Ctx) (rank : Nat → Nat) (V : Nat → Option Buf) (S : Nat → Buf) (n : Nat)
    (rec : Rec) : Prop where
  no : ∀ s r, rec none s = some r → r = (none, s)
  yes : ∀ t s b s', rank t < n → rec (some t) s = some (b, s') → ∀ k, rank t < k →
    Inv g cx rank V S k s →
      b = V t ∧ Inv g cx rank V S k s' ∧ Fr g cx rank (rank t + 1) s s'

theorem readAll_right {n : Nat} {rec : Rec} (H : Right g cx rank V S n rec) {i : Nat} {src : Source}
    (hi : g.sources[i]? = some src) {k : Nat} (hkn : k ≤ n) :
    ∀ (us : List (Option Nat)) (s : State) bs s', (∀ u, some u ∈ us → some u ∈ src.reads ∧ rank u < k) →
      Inv g cx rank V S k s → readAll rec us s = some (bs, s') →
      bs = us.map (fun u => u.bind V) ∧ Inv g cx rank V S k s' ∧ Fr g cx rank k s s' ∧
      s'.srcReady i = s.srcReady i ∧ ∀ v, runs s' i v = runs s i v
  | [], s, bs, s', _, hI, h => by
    simp only [readAll, Option.some.injEq, Prod.mk.injEq] at h
    obtain ⟨rfl, rfl⟩ := h
    exact ⟨rfl, hI, Fr.refl _ _, rfl, fun _ => rfl⟩
  | u :: us, s, bs, s', hus, hI, h => by
    simp only [readAll] at h
    cases h₁ : rec u s with
    | none => simp [h₁] at h
    | some p =>
      obtain ⟨b, s₁⟩ := p
      simp only [h₁] at h
      cases h₂ : readAll rec us s₁ with
      | none => simp [h₂] at h
      | some q =>
        obtain ⟨bs', s₂⟩ := q
        simp only [h₂, Option.some.injEq, Prod.mk.injEq] at h
        obtain ⟨rfl, rfl⟩ := h
        have key : b = u.bind V ∧ Inv g cx rank V S k s₁ ∧ Fr g cx rank k s s₁ ∧
            s₁.srcReady i = s.srcReady i ∧ ∀ v, runs s₁ i v = runs s i v := by
          cases u with
          | none =>
            have := H.no s _ h₁
            simp only [Prod.mk.injEq] at this
            obtain ⟨rfl, rfl⟩ := this
            exact ⟨rfl, hI, Fr.refl _ _, rfl, fun _ => rfl⟩
          | some t =>
            obtain ⟨hm, hr⟩ := hus t (by simp)
            obtain ⟨e, hI₁, hf⟩ := H.yes t s b s₁ (lt_of_lt_of_le hr hkn) h₁ k hr hI
            obtain ⟨a, _, c⟩ := hf.src i src t hi hm (le_refl _)
            exact ⟨e, hI₁, hf.weaken hr, a, c⟩
        obtain ⟨e, hI₁, hf, r₁, c₁⟩ := key
        obtain ⟨e₂, hI₂, hf₂, r₂, c₂⟩ := readAll_right H hi hkn us s₁ bs' s₂
          (fun u hu => hus u (by simp [hu])) hI₁ h₂
        exact ⟨by simp [e, e₂], hI₂, hf.trans hf₂, r₂.trans r₁, fun v => (c₂ v).trans (c₁ v)⟩

theorem runs_append (s : State) (e : Event) (b : Nat → Buf) (r : Nat → Bool) (i : Nat) (v : Option Nat) :
    runs { s with srcBuf := b, srcReady := r, log := s.log ++ [e] } i v =
      runs s i v + if e.source = i ∧ e.voice = v then 1 else 0 := by
  simp [runs, List.countP_append, List.countP_cons]

theorem prepare_right {n : Nat} {rec : Rec} (H : Right g cx rank V S n rec)
    (hS : Solves g cx V S) {i : Nat} {src : Source} (hi : Used g cx i src) {k : Nat} (hkn : k ≤ n)
    (hreads : ∀ u, some u ∈ src.reads → rank u < k) (s s' : State) (hI : Inv g cx rank V S k s)
    (h : prepare rec cx i src s = some s') :
    Inv g cx rank V S k s' ∧ Fr g cx rank (k + 1) s s' ∧ s'.srcReady i = true ∧
      ∀ t, k ≤ rank t → s'.tgtReady t = s.tgtReady t ∧ s'.tgtBuf t = s.tgtBuf t := by
  unfold prepare at h
  by_cases hr : s.srcReady i = true
  · rw [if_pos hr] at h
    obtain rfl := Option.some.inj h
    exact ⟨hI, Fr.refl _ _, hr, fun _ _ => ⟨rfl, rfl⟩⟩
  · rw [if_neg hr] at h
    cases h₁ : readAll rec src.reads s with
    | none => simp [h₁] at h
    | some p =>
      obtain ⟨bs, s₁⟩ := p
      simp only [h₁, Option.some.injEq] at h
      subst h
      obtain ⟨e, hI₁, hf, r₁, c₁⟩ := readAll_right H hi.1 hkn src.reads s bs s₁
        (fun u hu => ⟨hu, hreads u hu⟩) hI h₁
      have hz : runs s₁ i (voiceKey cx src) = 0 := by
        rw [c₁, hI.cnt i src hi]; simp [hr]
      have hbuf : src.gen (some cx.voice) (runs s₁ i (voiceKey cx src)) bs = S i := by
        rw [hz, e, hS.source i src hi.1]
        · have := hi.2
          unfold useSource at this
          cases hreg : src.region with
          | none => exact Or.inl rfl
          | some r => right; simp [hreg] at this; rw [this]
      have hg : generated cx i src bs s₁ =
          { s₁ with srcBuf := Function.update s₁.srcBuf i (S i)
                    srcReady := Function.update s₁.srcReady i true
                    log := s₁.log ++ [⟨i, voiceKey cx src, true⟩] } := by
        unfold generated; rw [hbuf]
      rw [hg]
      refine ⟨⟨hI₁.tgt, ?_, ?_⟩, ⟨?_, ?_, ?_, ?_, ?_⟩, ?_, hf.tgt⟩
      · intro j src' hj hready
        by_cases hji : j = i
        · subst hji; simp
        · simp only [Function.update_of_ne hji] at hready ⊢
          exact hI₁.buf j src' hj hready
      · intro j src' hj
        rw [runs_append]
        by_cases hji : j = i
        · subst hji
          obtain rfl : src = src' := Option.some.inj (hi.1.symm.trans hj.1)
          simp [hz]
        · simp only [Function.update_of_ne hji]
          rw [hI₁.cnt j src' hj]
          have : ¬ (i = j ∧ voiceKey cx src = voiceKey cx src') := fun h => hji h.1.symm
          simp [this]
      · intro t ht
        exact hf.tgt t (by omega)
      · intro j src' u hj hu hk
        have hji : j ≠ i := by
          rintro rfl
          obtain rfl : src = src' := Option.some.inj (hi.1.symm.trans hj)
          have := hreads u hu
          omega
        obtain ⟨a, b, c⟩ := hf.src j src' u hj hu (by omega)
        refine ⟨by simpa [Function.update_of_ne hji] using a,
          by simpa [Function.update_of_ne hji] using b, fun v => ?_⟩
        rw [runs_append, c v]
        have : ¬ (i = j ∧ voiceKey cx src = v) := fun h => hji h.1.symm
        simp [this]
      · intro j hj
        by_cases hji : j = i
        · subst hji; simp
        · simpa [Function.update_of_ne hji] using hf.mono j hj
      · intro j v hv
        rw [runs_append, hf.other j v hv]
        have : ¬ (i = j ∧ voiceKey cx src = v) := by
          rintro ⟨rfl, rfl⟩
          exact hv src hi rfl
        simp [this]
      · intro j hj
        have hji : j ≠ i := by rintro rfl; exact hj src hi
        obtain ⟨a, b⟩ := hf.flag j hj
        exact ⟨by simpa [Function.update_of_ne hji] using a, by simpa [Function.update_of_ne hji] using b⟩
      · simp

/-- What the evaluation of a target `t` of rank `k` leaves alone. -/
structure FrT (g : Graph) (cx : Ctx) (rank : Nat → Nat) (t k : Nat) (s s' : State) : Prop where
  fr : Fr g cx rank (k + 1) s s'
  same : ∀ u, u ≠ t → k ≤ rank u → s'.tgtReady u = s.tgtReady u ∧ s'.tgtBuf u = s.tgtBuf u
  ready : s'.tgtReady t = s.tgtReady t

theorem FrT.refl (t k : Nat) (s : State) : FrT g cx rank t k s s :=
  ⟨Fr.refl _ _, fun _ _ _ => ⟨rfl, rfl⟩, rfl⟩

theorem FrT.trans {t k : Nat} {a b c : State} (h : FrT g cx rank t k a b) (h' : FrT g cx rank t k b c) :
    FrT g cx rank t k a c :=
  ⟨h.fr.trans h'.fr, fun u hu hk => ⟨(h'.same u hu hk).1.trans (h.same u hu hk).1,
    (h'.same u hu hk).2.trans (h.same u hu hk).2⟩, h'.ready.trans h.ready⟩

theorem runs_writeTarget (t : Nat) (b : Buf) (s : State) (i : Nat) (v : Option Nat) :
    runs (writeTarget t b s) i v = runs s i v := rfl

theorem frT_write {t k : Nat} (hk : rank t = k) (b : Buf) (s : State) :
    FrT g cx rank t k s (writeTarget t b s) where
  fr := {
    tgt := fun u hu => by
      have : u ≠ t := by rintro rfl; omega
      simp [writeTarget, Function.update_of_ne this]
    src := fun _ _ _ _ _ _ => ⟨rfl, rfl, fun _ => rfl⟩
    mono := fun _ h => h
    other := fun _ _ _ => rfl
    flag := fun _ _ => ⟨rfl, rfl⟩ }
  same u hu _ := by simp [writeTarget, Function.update_of_ne hu]
  ready := rfl

theorem inv_write {t k : Nat} (hk : k ≤ rank t) (b : Buf) (s : State) (hI : Inv g cx rank V S k s) :
    Inv g cx rank V S k (writeTarget t b s) where
  tgt u tgt h₁ h₂ h₃ h₄ := by
    have : u ≠ t := by rintro rfl; omega
    simp only [writeTarget, Function.update_of_ne this]
    exact hI.tgt u tgt h₁ h₂ h₃ h₄
  buf := hI.buf
  cnt := hI.cnt

theorem mixSource_right {n : Nat} {rec : Rec} (H : Right g cx rank V S n rec)
    (hS : Solves g cx V S) {t : Nat} (hn : rank t ≤ n) (mult first : Bool) (c : Conn) {src : Source}
    (hi : Used g cx c.source src) (hreads : ∀ u, some u ∈ src.reads → rank u < rank t)
    (hdm : ∀ u, c.depthMod = some u → rank u < rank t) (s s' : State)
    (hI : Inv g cx rank V S (rank t) s) (h : mixSource rec cx t mult first c src s = some s') :
    Inv g cx rank V S (rank t) s' ∧ FrT g cx rank t (rank t) s s' ∧
      s'.tgtBuf t = mixed mult first (sourceDepth cx src c) (c.depthMod.bind V) (S c.source)
        (s.tgtBuf t) := by
  unfold mixSource at h
  cases h₁ : prepare rec cx c.source src s with
  | none => simp [h₁] at h
  | some s₁ =>
    simp only [h₁] at h
    obtain ⟨hI₁, hf₁, hr₁, ht₁⟩ := prepare_right H hS hi hn hreads s s₁ hI h₁
    cases h₂ : rec c.depthMod s₁ with
    | none => simp [h₂] at h
    | some p =>
      obtain ⟨dm, s₂⟩ := p
      simp only [h₂, Option.some.injEq] at h
      have key : dm = c.depthMod.bind V ∧ Inv g cx rank V S (rank t) s₂ ∧
          Fr g cx rank (rank t) s₁ s₂ := by
        cases hc : c.depthMod with
        | none =>
          rw [hc] at h₂
          have := H.no s₁ _ h₂
          simp only [Prod.mk.injEq] at this
          obtain ⟨rfl, rfl⟩ := this
          exact ⟨rfl, hI₁, Fr.refl _ _⟩
        | some u =>
          rw [hc] at h₂
          have hu := hdm u hc
          obtain ⟨e, hI₂, hf₂⟩ := H.yes u s₁ dm s₂ (lt_of_lt_of_le hu hn) h₂ (rank t) hu hI₁
          exact ⟨e, hI₂, hf₂.weaken hu⟩
      obtain ⟨e, hI₂, hf₂⟩ := key
      have hsb : s₂.srcBuf c.source = S c.source :=
        hI₂.buf c.source src hi (hf₂.mono _ hr₁)
      have htb : s₂.tgtBuf t = s.tgtBuf t :=
        ((hf₂.tgt t (le_refl _)).2).trans (ht₁ t (le_refl _)).2
      subst h
      refine ⟨inv_write (le_refl _) _ _ hI₂, FrT.trans ?_ (frT_write rfl _ _), ?_⟩
      · exact ⟨hf₁.trans (hf₂.weaken (Nat.le_succ _)), fun u hu hk =>
          ⟨(hf₂.tgt u hk).1.trans (ht₁ u hk).1, (hf₂.tgt u hk).2.trans (ht₁ u hk).2⟩,
          (hf₂.tgt t (le_refl _)).1.trans (ht₁ t (le_refl _)).1⟩
      · simp [writeTarget, hsb, htb, e]

/-- Folding contributions into a buffer value. -/
def combine (mult : Bool) (l : List ℚ) : ℚ := if mult then l.prod else l.sum

theorem mixed_first (mult : Bool) (c : Conn) {src : Source} (hi : Used g cx c.source src) (b : Buf)
    (i : Nat) :
    mixed mult true (sourceDepth cx src c) (c.depthMod.bind V) (S c.source) b i =
      contribution cx g mult V S c i := by
  simp only [mixed, if_true, firstBuf, contribution, hi.1, Option.bind_some, sourceDepth]
  cases c.depthMod.bind V with
  | none => split <;> split <;> simp_all
  | some m => cases mult <;> simp

theorem mixed_next (mult : Bool) (c : Conn) {src : Source} (hi : Used g cx c.source src) (b : Buf)
    (i : Nat) :
    mixed mult false (sourceDepth cx src c) (c.depthMod.bind V) (S c.source) b i =
      (if mult then b i * contribution cx g mult V S c i else b i + contribution cx g mult V S c i) := by
  simp only [mixed, nextBuf, contribution, hi.1, Option.bind_some, sourceDepth]
  cases c.depthMod.bind V with
  | none => cases mult <;> simp
  | some m => cases mult <;> simp

theorem counts_iff (c : Conn) {src : Source} (h : g.sources[c.source]? = some src) :
    counts cx g c = useSource cx src := by
  unfold counts useSource
  rw [h]
  cases hreg : src.region with
  | none => simp [hreg]
  | some r =>
    by_cases hr : r = cx.region
    · subst hr; simp [hreg]
    · have : ¬ cx.region = r := fun h => hr h.symm
      simp [hreg, hr, this]

theorem connLoop_right {n : Nat} {rec : Rec} (H : Right g cx rank V S n rec)
    (hS : Solves g cx V S) {t : Nat} (hn : rank t ≤ n) (mult : Bool) :
    ∀ (cs : List Conn) (first : Bool) (s : State) (first' : Bool) (s' : State),
      (∀ c ∈ cs, (∀ u, c.depthMod = some u → rank u < rank t) ∧
        ∀ src, g.sources[c.source]? = some src → ∀ u, some u ∈ src.reads → rank u < rank t) →
      Inv g cx rank V S (rank t) s →
      connLoop g rec cx t mult cs first s = some (first', s') →
      Inv g cx rank V S (rank t) s' ∧ FrT g cx rank t (rank t) s s' ∧
      first' = (first && (cs.filter (counts cx g)).isEmpty) ∧
      ∀ i, s'.tgtBuf t i =
        if first then
          if (cs.filter (counts cx g)).isEmpty then s.tgtBuf t i
          else combine mult ((cs.filter (counts cx g)).map (contribution cx g mult V S · i))
        else if mult then
          s.tgtBuf t i * combine mult ((cs.filter (counts cx g)).map (contribution cx g mult V S · i))
        else s.tgtBuf t i + combine mult ((cs.filter (counts cx g)).map (contribution cx g mult V S · i))
  | [], first, s, first', s', _, hI, h => by
    simp only [connLoop, Option.some.injEq, Prod.mk.injEq] at h
    obtain ⟨rfl, rfl⟩ := h
    refine ⟨hI, FrT.refl _ _ _, by simp, fun i => ?_⟩
    cases first <;> cases mult <;> simp [combine]
  | c :: cs, first, s, first', s', hcs, hI, h => by
    have hcs' := fun c h => hcs c (List.mem_cons_of_mem _ h)
    simp only [connLoop] at h
    cases hs : g.sources[c.source]? with
    | none => simp [hs] at h
    | some src =>
      simp only [hs] at h
      by_cases hu : useSource cx src = true
      · rw [if_pos hu] at h
        cases h₁ : mixSource rec cx t mult first c src s with
        | none => simp [h₁] at h
        | some s₁ =>
          simp only [h₁] at h
          have hused : Used g cx c.source src := ⟨hs, hu⟩
          obtain ⟨hI₁, hf₁, hb₁⟩ := mixSource_right H hS hn mult first c hused
            ((hcs c (by simp)).2 src hs) (hcs c (by simp)).1 s s₁ hI h₁
          obtain ⟨hI₂, hf₂, e₂, hb₂⟩ := connLoop_right H hS hn mult cs false s₁ first' s' hcs' hI₁ h
          have hct : counts cx g c = true := by rw [counts_iff c hs, hu]
          refine ⟨hI₂, hf₁.trans hf₂, by simp [e₂, hct], fun i => ?_⟩
          rw [hb₂ i, hb₁]
          cases first with
          | true =>
            rw [mixed_first mult c hused]
            cases mult <;> simp [hct, combine]
          | false =>
            rw [mixed_next mult c hused]
            cases mult <;> simp [hct, combine] <;> ring
      · rw [if_neg hu] at h
        obtain ⟨hI₂, hf₂, e₂, hb₂⟩ := connLoop_right H hS hn mult cs first s first' s' hcs' hI h
        have hct : counts cx g c = false := by rw [counts_iff c hs]; simpa using hu
        refine ⟨hI₂, hf₂, by simp [e₂, hct], fun i => ?_⟩
        rw [hb₂ i]
        simp [hct]

theorem inv_mark {t : Nat} (s : State) (hI : Inv g cx rank V S (rank t) s) :
    Inv g cx rank V S (rank t) (markTarget t s) where
  tgt u tgt h₁ h₂ h₃ h₄ := by
    have : u ≠ t := by rintro rfl; omega
    simp only [markTarget, Function.update_of_ne this] at h₄
    exact hI.tgt u tgt h₁ h₂ h₃ h₄
  buf := hI.buf
  cnt := hI.cnt

theorem getMod_right (hR : Ranked g rank) (hS : Solves g cx V S) :
    ∀ n N, Right g cx rank V S N (getMod g cx n)
  | 0, N => ⟨fun s r h => by simp [getMod] at h, fun t s b s' _ h => by simp [getMod] at h⟩
  | n + 1, N => by
    refine ⟨fun s r h => by simpa [getMod] using h.symm, ?_⟩
    intro t s b s' _ h k hk hI
    rw [getMod] at h
    cases ht : g.targets[t]? with
    | none =>
      simp only [ht, Option.some.injEq, Prod.mk.injEq] at h
      obtain ⟨rfl, rfl⟩ := h
      exact ⟨(hS.invalid t ht).symm, hI, Fr.refl _ _⟩
    | some tgt =>
      simp only [ht] at h
      by_cases hr : cx.region ≠ tgt.region
      · rw [if_pos hr] at h
        simp only [Option.some.injEq, Prod.mk.injEq] at h
        obtain ⟨rfl, rfl⟩ := h
        exact ⟨(hS.foreign t tgt ht (Ne.symm hr)).symm, hI, Fr.refl _ _⟩
      rw [if_neg hr] at h
      have hreg : tgt.region = cx.region := by simpa using (not_not.1 hr).symm
      by_cases hd : s.tgtReady t = true
      · rw [if_pos hd] at h
        simp only [Option.some.injEq, Prod.mk.injEq] at h
        obtain ⟨rfl, rfl⟩ := h
        exact ⟨(hI.tgt t tgt ht hreg hk hd).symm, hI, Fr.refl _ _⟩
      rw [if_neg hd] at h
      cases h₁ : connLoop g (getMod g cx n) cx t tgt.multiplicative tgt.conns true (markTarget t s) with
      | none => simp [h₁] at h
      | some p =>
        obtain ⟨first, s₁⟩ := p
        simp only [h₁, Option.some.injEq, Prod.mk.injEq] at h
        obtain ⟨rfl, rfl⟩ := h
        obtain ⟨hI₁, hf₁, hfirst, hb₁⟩ := connLoop_right (getMod_right hR hS n (rank t)) hS
          (le_refl _) tgt.multiplicative tgt.conns true (markTarget t s) first s₁ (hR t tgt ht)
          (inv_mark s (hI.weaken (Nat.le_of_lt hk))) h₁
        have hV : V t = some ((fillNeutral t tgt.multiplicative first s₁).tgtBuf t) := by
          rw [hS.target t tgt ht hreg]
          congr 1
          funext i
          simp only [Bool.true_and] at hfirst
          cases hemp : (tgt.conns.filter (counts cx g)).isEmpty with
          | true =>
            rw [hemp] at hfirst
            subst hfirst
            simp only [fillNeutral, if_true, writeTarget, Function.update_self]
            rw [List.isEmpty_iff.1 hemp]
            cases tgt.multiplicative <;> simp
          | false =>
            rw [hemp] at hfirst
            subst hfirst
            have := hb₁ i
            rw [if_pos rfl, hemp] at this
            simp only [fillNeutral]
            simpa [combine] using this.symm
        have hfill : FrT g cx rank t (rank t) s₁ (fillNeutral t tgt.multiplicative first s₁) := by
          unfold fillNeutral
          split
          · exact frT_write rfl _ _
          · exact FrT.refl _ _ _
        have hIf : Inv g cx rank V S (rank t) (fillNeutral t tgt.multiplicative first s₁) := by
          unfold fillNeutral
          split
          · exact inv_write (le_refl _) _ _ hI₁
          · exact hI₁
        have hall := hf₁.trans hfill
        refine ⟨hV.symm, ⟨?_, hIf.buf, hIf.cnt⟩, ?_⟩
        · intro u tgt' h₁' h₂' h₃' h₄'
          by_cases hut : u = t
          · subst hut; exact hV
          · by_cases hlt : rank u < rank t
            · exact hIf.tgt u tgt' h₁' h₂' hlt h₄'
            · obtain ⟨a, b⟩ := hall.same u hut (by omega)
              rw [b]
              rw [a] at h₄'
              have h₄'' : s.tgtReady u = true := by
                simpa [markTarget, Function.update_of_ne hut] using h₄'
              exact hI.tgt u tgt' h₁' h₂' h₃' h₄''
        · refine ⟨?_, hall.fr.src, hall.fr.mono, hall.fr.other, hall.fr.flag⟩
          intro u hu
          have hut : u ≠ t := by rintro rfl; omega
          obtain ⟨a, b⟩ := hall.fr.tgt u hu
          exact ⟨by simpa [markTarget, Function.update_of_ne hut] using a, b⟩

end

end Verif.ModMatrix
