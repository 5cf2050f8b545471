import Verif.Connections.Matrix

/-!
C141: the modulation matrix of an instrument holds the connections of its regions and no others.
-/
namespace Verif.Connections
open Verif.ModMatrix (ModKey ModId Builder Conn Target Source Built indexOf registerSource registerTarget registerDepth connect
  updConns setConn)

/-! ## Keys of lists -/

theorem keyAt_append {A : Type} (l m : List (Src × A)) (i : Nat) (h : i < l.length) : keyAt (l ++ m) i = keyAt l i := by
  unfold keyAt
  rw [List.getElem?_append_left h]

theorem mem_of_nodup {l : List (Src × Target)} (hn : (l.map (·.1)).Nodup) {T : Src} {a : Target} (h : (T, a) ∈ l) :
    l.filter (fun p => decide (p.1 = T)) = [(T, a)] := by
  induction l with
  | nil => simp at h
  | cons x l ih =>
    rw [List.map_cons, List.nodup_cons] at hn
    rcases List.mem_cons.1 h with rfl | h
    · rw [List.filter_cons, if_pos (by simp)]
      have : l.filter (fun p => decide (p.1 = T)) = [] := by
        rw [List.filter_eq_nil_iff]
        intro p hp e
        simp only [decide_eq_true_eq] at e
        exact hn.1 (List.mem_map.2 ⟨p, hp, e⟩)
      rw [this]
    · rw [List.filter_cons, if_neg, ih hn.2 h]
      intro e
      simp only [decide_eq_true_eq] at e
      exact hn.1 (List.mem_map.2 ⟨_, h, e.symm⟩)

theorem connsTo_mem {l : List (Src × Target)} (hn : (l.map (·.1)).Nodup) {T : Src} {a : Target} (h : (T, a) ∈ l) :
    connsTo l T = a.conns := by
  unfold connsTo
  rw [mem_of_nodup hn h]
  simp

theorem connsTo_none {l : List (Src × Target)} {T : Src} (h : T ∉ l.map (·.1)) : connsTo l T = [] := by
  unfold connsTo
  have : l.filter (fun p => decide (p.1 = T)) = [] := by
    rw [List.filter_eq_nil_iff]
    intro p hp e
    simp only [decide_eq_true_eq] at e
    exact h (List.mem_map.2 ⟨p, hp, e⟩)
  rw [this]; rfl

theorem connsTo_append (l m : List (Src × Target)) (T : Src) : connsTo (l ++ m) T = connsTo l T ++ connsTo m T := by
  simp [connsTo]

theorem mem_connsTo {l : List (Src × Target)} {T : Src} {c : Conn} (h : c ∈ connsTo l T) : ∃ p ∈ l, c ∈ p.2.conns := by
  unfold connsTo at h
  obtain ⟨p, hp, hc⟩ := List.mem_flatMap.1 h
  exact ⟨p, (List.mem_filter.1 hp).1, hc⟩

theorem connsTo_upd {l : List (Src × Target)} (hn : (l.map (·.1)).Nodup) {i : Nat} {K : Src} {a : Target} (hi : l[i]? = some (K, a))
    (f : List Conn → List Conn) (T : Src) : connsTo (updConns i f l) T = if T = K then f (connsTo l K) else connsTo l T := by
  have hn' : ((updConns i f l).map (·.1)).Nodup := by rw [ModMatrix.updConns_keys]; exact hn
  have hlt := (List.getElem?_eq_some_iff.1 hi).1
  by_cases hT : T = K
  · subst hT
    rw [if_pos rfl, connsTo_mem hn (List.mem_of_getElem? hi)]
    have : (updConns i f l)[i]? = some (T, { a with conns := f a.conns }) := by
      unfold updConns
      rw [List.getElem?_modify_eq, hi]
      rfl
    rw [connsTo_mem hn' (List.mem_of_getElem? this)]
  · rw [if_neg hT]
    by_cases hm : T ∈ l.map (·.1)
    · obtain ⟨⟨_, x⟩, hp, rfl⟩ := List.mem_map.1 hm
      obtain ⟨j, hj⟩ := List.mem_iff_getElem?.1 hp
      have hij : i ≠ j := by
        rintro rfl
        rw [hi] at hj
        simp only [Option.some.injEq, Prod.mk.injEq] at hj
        exact hT hj.1.symm
      rw [connsTo_mem hn hp]
      refine connsTo_mem hn' (List.mem_of_getElem? (i := j) ?_)
      unfold updConns
      rw [List.getElem?_modify, hj]
      simp [hij]
    · rw [connsTo_none hm, connsTo_none (by rw [ModMatrix.updConns_keys]; exact hm)]

theorem keyAt_upd (l : List (Src × Target)) (i : Nat) (f : List Conn → List Conn) (j : Nat) :
    keyAt (updConns i f l) j = keyAt l j := by
  unfold keyAt updConns
  rw [List.getElem?_modify]
  cases l[j]? with
  | none => split <;> rfl
  | some p => split <;> rfl

theorem setConn_new (s : Nat) (d : ℚ) (dm : Option Nat) (v : ℚ) : ∀ cs : List Conn, s ∉ cs.map Conn.source →
    setConn s d dm v cs = cs ++ [⟨s, d, dm, v⟩]
  | [], _ => rfl
  | c :: cs, h => by
    rw [List.map_cons, List.mem_cons, not_or] at h
    rw [setConn, if_neg (fun e => h.1 e.symm), setConn_new s d dm v cs h.2]
    rfl

/-! ## Registrations leave the view alone -/

/-- The matrix grew: what was registered is at its place. -/
structure Grew (b b' : Builder Src) : Prop where
  built : Built b'
  srcs : ∀ i, i < b.srcs.length → keyAt b'.srcs i = keyAt b.srcs i
  tgts : ∀ i, i < b.tgts.length → keyAt b'.tgts i = keyAt b.tgts i
  lens : b.srcs.length ≤ b'.srcs.length ∧ b.tgts.length ≤ b'.tgts.length

theorem Grew.trans {a b c : Builder Src} (h : Grew a b) (h' : Grew b c) : Grew a c where
  built := h'.built
  srcs i hi := (h'.srcs i (lt_of_lt_of_le hi h.lens.1)).trans (h.srcs i hi)
  tgts i hi := (h'.tgts i (lt_of_lt_of_le hi h.lens.2)).trans (h.tgts i hi)
  lens := ⟨le_trans h.lens.1 h'.lens.1, le_trans h.lens.2 h'.lens.2⟩

theorem Grew.decode {b b' : Builder Src} (hb : Built b) (h : Grew b b') {T : Src} {c : Conn} (hc : c ∈ connsTo b.tgts T) :
    decode b' c = decode b c := by
  obtain ⟨p, hp, hcp⟩ := mem_connsTo hc
  obtain ⟨h₁, h₂⟩ := hb.conns p hp c hcp
  unfold Connections.decode
  rw [h.srcs _ h₁]
  cases hd : c.depthMod with
  | none => rfl
  | some d => simp only [Option.bind_some]; rw [h.tgts _ (h₂ d hd)]

theorem Grew.view {b b' : Builder Src} (hb : Built b) (h : Grew b b') {T : Src} (hc : connsTo b'.tgts T = connsTo b.tgts T) :
    view b' T = view b T := by
  unfold Connections.view
  rw [hc]
  exact List.map_congr_left (fun c hc => h.decode hb hc)

theorem source_grew (srcOf : Src → Source) (b : Builder Src) (hb : Built b) (k : Src) :
    Grew b (registerSource srcOf b k).2 ∧ keyAt (registerSource srcOf b k).2.srcs (registerSource srcOf b k).1 = some k ∧
      (registerSource srcOf b k).1 < (registerSource srcOf b k).2.srcs.length ∧
      ∀ T, connsTo (registerSource srcOf b k).2.tgts T = connsTo b.tgts T := by
  have hbuilt : Built (registerSource srcOf b k).2 := ModMatrix.step_built srcOf (fun _ => ⟨0, false, []⟩) b (.source k) hb
  unfold registerSource at hbuilt ⊢
  cases h : indexOf b.srcs k with
  | some i =>
    simp only [h] at hbuilt ⊢
    obtain ⟨a, ha⟩ := ModMatrix.indexOf_lt h
    refine ⟨⟨hbuilt, fun _ _ => rfl, fun _ _ => rfl, le_refl _, le_refl _⟩, ?_, (List.getElem?_eq_some_iff.1 ha).1, by simp⟩
    simp [keyAt, ha]
  | none =>
    simp only [h] at hbuilt ⊢
    refine ⟨⟨hbuilt, fun i hi => keyAt_append _ _ i hi, fun _ _ => rfl, by simp, le_refl _⟩, ?_, by simp, by simp⟩
    simp [keyAt]

theorem target_grew (tgtOf : Src → Target) (b : Builder Src) (hb : Built b) (k : Src) :
    Grew b (registerTarget tgtOf b k).2 ∧ (∃ a, (registerTarget tgtOf b k).2.tgts[(registerTarget tgtOf b k).1]? = some (k, a)) ∧
      (registerTarget tgtOf b k).2.srcs = b.srcs ∧
      ∀ T, connsTo (registerTarget tgtOf b k).2.tgts T = connsTo b.tgts T := by
  obtain ⟨hbuilt, _⟩ := ModMatrix.registerTarget_built tgtOf b k hb
  unfold registerTarget at hbuilt ⊢
  cases h : indexOf b.tgts k with
  | some i =>
    simp only [h] at hbuilt ⊢
    obtain ⟨a, ha⟩ := ModMatrix.indexOf_lt h
    exact ⟨⟨hbuilt, fun _ _ => rfl, fun _ _ => rfl, le_refl _, le_refl _⟩, ⟨a, ha⟩, by simp⟩
  | none =>
    simp only [h] at hbuilt ⊢
    refine ⟨⟨hbuilt, fun _ _ => rfl, fun i hi => keyAt_append _ _ i hi, le_refl _, by simp⟩, ⟨_, by simp; rfl⟩, by simp, fun T => ?_⟩
    rw [connsTo_append]
    have : connsTo [(k, { tgtOf k with conns := [] })] T = [] := by
      unfold connsTo
      by_cases e : k = T <;> simp [e]
    rw [this, List.append_nil]

theorem depth_grew (tgtOf : Src → Target) (b : Builder Src) (hb : Built b) (dk : Option Src) :
    Grew b (registerDepth tgtOf b dk).2 ∧ (registerDepth tgtOf b dk).1.bind (keyAt (registerDepth tgtOf b dk).2.tgts) = dk ∧
      (registerDepth tgtOf b dk).2.srcs = b.srcs ∧
      ∀ T, connsTo (registerDepth tgtOf b dk).2.tgts T = connsTo b.tgts T := by
  cases dk with
  | none => exact ⟨⟨hb, fun _ _ => rfl, fun _ _ => rfl, le_refl _, le_refl _⟩, rfl, rfl, fun _ => rfl⟩
  | some k =>
    obtain ⟨h₁, ⟨a, h₂⟩, h₃, h₄⟩ := target_grew tgtOf b hb k
    refine ⟨h₁, ?_, h₃, h₄⟩
    show keyAt _ _ = some k
    unfold keyAt
    exact (congrArg (Option.map (·.1)) h₂).trans rfl

/-- One connection entered into the matrix, when its source is not connected to its target yet. -/
theorem setupConn_view (srcOf : Src → Source) (tgtOf : Src → Target) (b : Builder Src) (hb : Built b) (c : Connection)
    (hnew : ∀ e ∈ view b (.other c.target), e.1 ≠ some (sourceKey c)) :
    Built (setupConn srcOf tgtOf b c) ∧ ∀ T, view (setupConn srcOf tgtOf b c) T =
      if T = .other c.target then view b T ++ [entry c] else view b T := by
  obtain ⟨g₁, k₁, l₁, v₁⟩ := source_grew srcOf b hb (sourceKey c)
  unfold setupConn
  simp only
  generalize registerSource srcOf b (sourceKey c) = s at g₁ k₁ l₁ v₁
  obtain ⟨g₂, ⟨a, k₂⟩, s₂, v₂⟩ := target_grew tgtOf s.2 g₁.built (.other c.target)
  generalize registerTarget tgtOf s.2 (.other c.target) = t at g₂ k₂ s₂ v₂
  have hbuilt := ModMatrix.step_built srcOf tgtOf t.2 (.connect s.1 t.1 c.depth (c.depthMod.map Src.other) c.vel) g₂.built
  simp only [ModMatrix.step] at hbuilt
  refine ⟨hbuilt, ?_⟩
  have hlt : t.1 < t.2.tgts.length := (List.getElem?_eq_some_iff.1 k₂).1
  unfold connect at hbuilt ⊢
  rw [if_neg (by rw [s₂]; omega)] at hbuilt ⊢
  obtain ⟨g₃, k₃, s₃, v₃⟩ := depth_grew tgtOf t.2 g₂.built (c.depthMod.map Src.other)
  have k₂' : keyAt (registerDepth tgtOf t.2 (c.depthMod.map Src.other)).2.tgts t.1 = some (.other c.target) := by
    rw [g₃.tgts _ hlt]; unfold keyAt; rw [k₂]; rfl
  simp only at hbuilt ⊢
  generalize registerDepth tgtOf t.2 (c.depthMod.map Src.other) = d at g₃ k₃ s₃ v₃ k₂' hbuilt
  obtain ⟨a', ha'⟩ : ∃ a', d.2.tgts[t.1]? = some (.other c.target, a') := by
    unfold keyAt at k₂'
    cases h : d.2.tgts[t.1]? with
    | none => rw [h] at k₂'; simp at k₂'
    | some p =>
      rw [h] at k₂'
      simp only [Option.map_some, Option.some.injEq] at k₂'
      exact ⟨p.2, by rw [← k₂']⟩
  have g : Grew b d.2 := (g₁.trans g₂).trans g₃
  have hv : ∀ T, connsTo d.2.tgts T = connsTo b.tgts T := fun T => (v₃ T).trans ((v₂ T).trans (v₁ T))
  have hsrc : keyAt d.2.srcs s.1 = some (sourceKey c) := by rw [s₃, s₂]; exact k₁
  have hfresh : s.1 ∉ (connsTo d.2.tgts (.other c.target)).map Conn.source := by
    intro hm
    obtain ⟨x, hx, hxs⟩ := List.mem_map.1 hm
    rw [hv] at hx
    refine hnew (Connections.decode b x) (List.mem_map.2 ⟨x, hx, rfl⟩) ?_
    rw [← g.decode hb hx]
    show keyAt d.2.srcs x.source = _
    rw [hxs, hsrc]
  intro T
  have hdec : decode { srcs := d.2.srcs, tgts := updConns t.1 (setConn s.1 c.depth d.1 c.vel) d.2.tgts } = decode d.2 := by
    funext x
    unfold decode
    have : keyAt (updConns t.1 (setConn s.1 c.depth d.1 c.vel) d.2.tgts) = keyAt d.2.tgts := by
      funext j; exact keyAt_upd _ _ _ _
    rw [this]
  unfold view
  rw [hdec]
  simp only
  rw [connsTo_upd g₃.built.tgtKeys ha' _ T]
  by_cases hT : T = .other c.target
  · subst hT
    rw [if_pos rfl, if_pos rfl, setConn_new _ _ _ _ _ hfresh, List.map_append, hv]
    congr 1
    · exact List.map_congr_left (fun x hx => g.decode hb hx)
    · simp only [List.map_cons, List.map_nil]
      unfold decode entry
      simp only [hsrc, k₃]
  · rw [if_neg hT, if_neg hT, hv]
    exact List.map_congr_left (fun x hx => g.decode hb hx)

/-- Entering a list of connections, no two of which have the same source and target. -/
theorem setup_view (srcOf : Src → Source) (tgtOf : Src → Target) : ∀ (l pre : List Connection) (b : Builder Src), Built b →
    (∀ T, view b (.other T) = (pre.filter (fun c => decide (c.target = T))).map entry) →
    (pre ++ l).Pairwise (fun a c => ¬ (sourceKey a = sourceKey c ∧ a.target = c.target)) →
    ∀ T, view (l.foldl (setupConn srcOf tgtOf) b) (.other T) =
      ((pre ++ l).filter (fun c => decide (c.target = T))).map entry
  | [], pre, b, hb, hv, hp, T => by simpa using hv T
  | c :: l, pre, b, hb, hv, hp, T => by
    have hnew : ∀ e ∈ view b (.other c.target), e.1 ≠ some (sourceKey c) := by
      intro e he h
      rw [hv] at he
      obtain ⟨x, hx, rfl⟩ := List.mem_map.1 he
      obtain ⟨hx, ht⟩ := List.mem_filter.1 hx
      simp only [decide_eq_true_eq] at ht
      rw [List.pairwise_append] at hp
      refine hp.2.2 x hx c (by simp) ⟨?_, ht⟩
      simpa [entry] using h
    obtain ⟨h₁, h₂⟩ := setupConn_view srcOf tgtOf b hb c hnew
    rw [List.foldl_cons]
    have := setup_view srcOf tgtOf l (pre ++ [c]) (setupConn srcOf tgtOf b c) h₁ (by
      intro T
      rw [h₂, hv, List.filter_append, List.map_append]
      by_cases e : c.target = T
      · simp [e]
      · have : ¬ Src.other T = Src.other c.target := fun x => e (Src.other.inj x).symm
        simp [e, this]) (by simpa using hp) T
    simpa using this

/-! ## No two connections with the same source and target -/

theorem pairwise_of_classes {cls : Connection → Connection → Bool} : ∀ l : List Connection,
    (∀ a ∈ l, cls a a = true ∧ (l.filter (cls a)).length ≤ 1) → l.Pairwise (fun a c => cls a c = false)
  | [], _ => List.Pairwise.nil
  | x :: l, h => by
    refine List.Pairwise.cons ?_ (pairwise_of_classes l ?_)
    · intro c hc
      obtain ⟨h₁, h₂⟩ := h x (by simp)
      cases hx : cls x c with
      | false => rfl
      | true =>
        rw [List.filter_cons, if_pos h₁, List.length_cons] at h₂
        have : c ∈ l.filter (cls x) := List.mem_filter.2 ⟨hc, hx⟩
        have := List.length_pos_of_mem this
        omega
    · intro a ha
      obtain ⟨h₁, h₂⟩ := h a (by simp [ha])
      refine ⟨h₁, le_trans ?_ h₂⟩
      rw [List.filter_cons]
      split
      · simp
      · exact le_refl _

theorem prepare_cc (d : ℚ) (k : Controller.Key) : (Controller.prepare d k).cc = k.cc := by
  unfold Controller.prepare
  split <;> rfl

/-- The class of a connection: the controller or the modulator, and the target. -/
def cls (a c : Connection) : Bool :=
  match a.source with
  | .ctl k => fromCC k.cc a.target c
  | .other s => fromOther s a.target c

theorem final_cc_lt (rs : List Region) (r : Region) (hr : r ∈ rs) (c : Connection) (hc : c ∈ final rs r) (k : Controller.Key)
    (hk : c.source = .ctl k) : k.cc < 512 := by
  rw [final_eq rs r hr] at hc
  rcases List.mem_append.1 hc with hc | hc
  · exact far_controllers r.id _ c hc k hk
  · unfold extra at hc
    simp only [List.mem_append] at hc
    rcases hc with (hc | hc) | hc <;>
    · split at hc
      · simp at hc
      · simp only [List.mem_singleton] at hc
        subst hc
        obtain rfl := Src.ctl.inj hk
        decide

theorem linkSaid_once (s T : ModKey) (ops : List Op) : (linkSaid s T ops).length ≤ 1 := by
  unfold linkSaid
  split <;> simp

theorem final_pairwise (rs : List Region) (r : Region) (hr : r ∈ rs) :
    (final rs r).Pairwise (fun a c => ¬ (sourceKey a = sourceKey c ∧ a.target = c.target)) := by
  refine List.Pairwise.imp ?_ (pairwise_of_classes (cls := cls) (final rs r) ?_)
  · rintro a c h ⟨h₁, h₂⟩
    unfold cls at h
    unfold sourceKey at h₁
    cases ha : a.source with
    | ctl k =>
      cases hc : c.source with
      | ctl k' =>
        simp only [ha, hc, Src.ctl.injEq] at h₁
        have : k.cc = k'.cc := by
          have := congrArg Controller.Key.cc h₁
          rwa [prepare_cc, prepare_cc] at this
        simp [ha, fromCC, hc, this, h₂] at h
      | other s => simp [ha, hc] at h₁
    | other s =>
      cases hc : c.source with
      | ctl k' => simp [ha, hc] at h₁
      | other s' =>
        simp only [ha, hc, Src.other.injEq] at h₁
        simp [ha, fromOther, hc, h₁, h₂] at h
  · intro a ha
    unfold cls
    cases hs : a.source with
    | ctl k =>
      refine ⟨by simp [fromCC, hs], ?_⟩
      have hlt := final_cc_lt rs r hr a ha k hs
      obtain ⟨h₁, h₂⟩ := default_controllers rs r hr k.cc hlt a.target
      simp only
      by_cases hu : Uses rs k.cc ∨ byDefault r.id k.cc = none
      · rw [h₁ hu]
        unfold ccSaid
        split <;> simp
      · rw [not_or] at hu
        cases hd : byDefault r.id k.cc with
        | none => exact absurd hd hu.2
        | some p =>
          rw [h₂ hu.1 p.1 p.2 (by rw [hd])]
          split <;> simp
    | other s =>
      refine ⟨by simp [fromOther, hs], ?_⟩
      simp only
      rw [instrument_modulators rs r hr s a.target]
      exact linkSaid_once _ _ _

theorem step_target (id : Nat) (op : Op) (ho : op.own id) (l : List Connection) (hl : ∀ c ∈ l, c.target.region = some id) :
    ∀ c ∈ step id l op, c.target.region = some id := by
  have plain : ∀ (s : Src) (T : ModKey) (f : Connection → Connection), (∀ c, (f c).target = c.target) → T.region = some id →
      ∀ c ∈ onConnection s T f l, c.target.region = some id := by
    intro s T f hf hT
    exact upsert_all (fun c => c.target.region = some id) _ _ _ (by rw [hf]; exact hT) (fun c _ hc => by rw [hf]; exact hc) l hl
  cases op with
  | cc n t p =>
    show ∀ c ∈ processGenericCc id n t p l, _
    unfold processGenericCc
    split
    · exact hl
    · refine upsert_all (fun c => c.target.region = some id) _ _ _ ?_ ?_ l hl
      · obtain ⟨k', _, _, _, d, _⟩ := setParam_source id p { source := .ctl ⟨none, n, 0, 0, 0⟩, target := t } _ rfl
        rw [d]; exact ho
      · intro c hp hc
        obtain ⟨k₀, h₀, _⟩ := sameCC_inv hp
        obtain ⟨k', _, _, _, d, _⟩ := setParam_source id p c k₀ h₀
        rw [d]; exact hc
  | depth s t v => exact plain (.other s) t (fun c => { c with depth := v }) (fun _ => rfl) ho
  | depthMod s t k => exact plain (.other s) t (fun c => { c with depthMod := some k }) (fun _ => rfl) ho
  | vel s t v => exact plain (.other s) t (fun c => { c with vel := v }) (fun _ => rfl) ho
  | make s t => exact plain (.other s) t (fun c => c) (fun _ => rfl) ho

theorem fold_target (id : Nat) (ops : List Op) : (∀ op ∈ ops, op.own id) → ∀ l : List Connection,
    (∀ c ∈ l, c.target.region = some id) → ∀ c ∈ ops.foldl (step id) l, c.target.region = some id := by
  induction ops with
  | nil => exact fun _ l h => h
  | cons op ops ih =>
    exact fun ho l h => ih (fun x hx => ho x (by simp [hx])) _ (step_target id op (ho op (by simp)) l h)

theorem final_target (rs : List Region) (r : Region) (hr : r ∈ rs) (ho : ∀ op ∈ r.ops, op.own r.id) :
    ∀ c ∈ final rs r, c.target.region = some r.id := by
  intro c hc
  rw [final_eq rs r hr] at hc
  rcases List.mem_append.1 hc with hc | hc
  · refine fold_target r.id (r.ops ++ [envelope r]) ?_ [] (by simp) c hc
    intro op hop
    rcases List.mem_append.1 hop with hop | hop
    · exact ho op hop
    · simp only [List.mem_singleton] at hop
      subst hop
      unfold envelope
      cases r.flexAmpEG <;> rfl
  · unfold extra at hc
    simp only [List.mem_append] at hc
    rcases hc with (hc | hc) | hc <;>
    · split at hc
      · simp at hc
      · simp only [List.mem_singleton] at hc
        subst hc
        rfl

theorem all_pairwise (rs : List Region) (hids : (rs.map Region.id).Nodup) (hown : ∀ r ∈ rs, ∀ op ∈ r.ops, op.own r.id) :
    (rs.flatMap (final rs)).Pairwise (fun a c => ¬ (sourceKey a = sourceKey c ∧ a.target = c.target)) := by
  rw [List.pairwise_flatMap]
  refine ⟨fun r hr => final_pairwise rs r hr, ?_⟩
  have hp : rs.Pairwise (fun a c => a.id ≠ c.id) := by
    rw [List.nodup_iff_pairwise_ne, List.pairwise_map] at hids
    exact hids
  refine List.Pairwise.imp_of_mem ?_ hp
  rintro r r' hr hr' hne a ha c hc ⟨_, h⟩
  have h₁ := final_target rs r hr (hown r hr) a ha
  have h₂ := final_target rs r' hr' (hown r' hr') c hc
  rw [h, h₂] at h₁
  exact hne (Option.some.inj h₁).symm

/-- C141: **the modulation matrix holds the connections of the regions and no others**. For every instrument whose regions
have different numbers and whose opcodes act on parameters of their own region: in the matrix, a parameter of a region is
modulated by exactly the connections of the region which act on it, each once, in their order, with their depth, their
dependency on the velocity and the modulation of their depth; the sources are those of the connections, with the step of a
controller as a part of the depth. -/
theorem matrix_connections (srcOf : Src → Source) (tgtOf : Src → Target) (rs : List Region) (hids : (rs.map Region.id).Nodup)
    (hown : ∀ r ∈ rs, ∀ op ∈ r.ops, op.own r.id) (r : Region) (hr : r ∈ rs) (T : ModKey) (hT : T.region = some r.id) :
    view (setup srcOf tgtOf rs) (.other T) = ((final rs r).filter (fun c => decide (c.target = T))).map entry := by
  have h := setup_view srcOf tgtOf (rs.flatMap (final rs)) [] ⟨[], []⟩ ⟨by simp, by simp, by simp, by simp⟩
    (fun _ => rfl) (by simpa using all_pairwise rs hids hown) T
  unfold setup
  rw [h, List.nil_append]
  congr 1
  have key : ∀ l : List Region, (∀ x ∈ l, x ∈ rs) → (l.map Region.id).Nodup →
      (l.flatMap (final rs)).filter (fun c => decide (c.target = T)) =
        if r.id ∈ l.map Region.id then (final rs r).filter (fun c => decide (c.target = T)) else [] := by
    have foreign : ∀ x ∈ rs, x.id ≠ r.id → (final rs x).filter (fun c => decide (c.target = T)) = [] := by
      intro x hx hne
      rw [List.filter_eq_nil_iff]
      intro c hc e
      simp only [decide_eq_true_eq] at e
      have := final_target rs x hx (hown x hx) c hc
      rw [e, hT] at this
      exact hne (Option.some.inj this).symm
    intro l
    induction l with
    | nil => intro _ _; simp
    | cons x l ih =>
      intro hm hn
      rw [List.map_cons, List.nodup_cons] at hn
      have ih := ih (fun y hy => hm y (by simp [hy])) hn.2
      rw [List.flatMap_cons, List.filter_append, ih]
      by_cases hx : x.id = r.id
      · have hxr : x = r := by
          have hp : ∀ l : List Region, (l.map Region.id).Nodup → ∀ a ∈ l, ∀ c ∈ l, a.id = c.id → a = c := by
            intro l
            induction l with
            | nil => intro _ a ha; simp at ha
            | cons y l ih =>
              intro hn a ha c hc e
              rw [List.map_cons, List.nodup_cons] at hn
              rcases List.mem_cons.1 ha with ha' | ha'
              · rcases List.mem_cons.1 hc with hc' | hc'
                · rw [ha', hc']
                · exact absurd (List.mem_map.2 ⟨c, hc', by rw [← e, ha']⟩) hn.1
              · rcases List.mem_cons.1 hc with hc' | hc'
                · exact absurd (List.mem_map.2 ⟨a, ha', by rw [e, hc']⟩) hn.1
                · exact ih hn.2 a ha' c hc' e
          exact hp rs hids x (hm x (by simp)) r hr hx
        subst hxr
        rw [if_neg hn.1, List.append_nil, if_pos (by simp)]
      · rw [foreign x (hm x (by simp)) hx, List.nil_append]
        have : ¬ r.id = x.id := fun e => hx e.symm
        simp only [List.map_cons, List.mem_cons, this, false_or]
  rw [key rs (fun _ h => h) hids, if_pos (List.mem_map.2 ⟨r, hr, rfl⟩)]

/-- C141: **from the opcodes to the matrix, for a controller**. The entries of the matrix by which the controller `n` acts on
a parameter of a region are none if the opcodes of the region do not name the two and the controller is not connected by
default, and one otherwise: with the depth given last, and as source the controller with the curve and the smoothing given
last, and the step given last as a part of the depth. -/
theorem controller_in_matrix (srcOf : Src → Source) (tgtOf : Src → Target) (rs : List Region) (hids : (rs.map Region.id).Nodup)
    (hown : ∀ r ∈ rs, ∀ op ∈ r.ops, op.own r.id) (r : Region) (hr : r ∈ rs) (T : ModKey) (hT : T.region = some r.id)
    (n : Nat) (hn : n < 512) (hu : Uses rs n ∨ byDefault r.id n = none) :
    (view (setup srcOf tgtOf rs) (.other T)).filter (fun e => match e.1 with
      | some (.ctl k) => decide (k.cc = n)
      | _ => false) = (ccSaid r.id n T r.ops).map entry := by
  rw [matrix_connections srcOf tgtOf rs hids hown r hr T hT, ← (default_controllers rs r hr n hn T).1 hu]
  have hsplit : (final rs r).filter (fromCC n T) = ((final rs r).filter (fun c => decide (c.target = T))).filter (fromCC n T) := by
    rw [List.filter_filter]
    apply List.filter_congr
    intro c _
    unfold fromCC
    cases c.source with
    | other s => simp
    | ctl k => by_cases h : c.target = T <;> simp [h]
  rw [hsplit]
  generalize hL : (final rs r).filter (fun c => decide (c.target = T)) = L
  have hLT : ∀ c ∈ L, c.target = T := by
    intro c hc
    rw [← hL] at hc
    simpa using (List.mem_filter.1 hc).2
  clear hL hsplit
  induction L with
  | nil => rfl
  | cons c L ih =>
    have hc := hLT c (by simp)
    have ih := ih (fun x hx => hLT x (by simp [hx]))
    rw [List.map_cons, List.filter_cons, List.filter_cons, ih]
    have : (match (entry c).1 with
      | some (.ctl k) => decide (k.cc = n)
      | _ => false) = fromCC n T c := by
      unfold entry sourceKey fromCC
      cases c.source with
      | other s => rfl
      | ctl k =>
        simp [prepare_cc, hc]
    rw [this]
    by_cases h : fromCC n T c = true <;> simp [h]

/-! ## Examples -/

/-- `pitch_oncc1=1200 pitch_stepcc1=100 pitch_curvecc1=2 pitch_oncc1=600 volume_oncc131=6`, and an LFO on the pitch. -/
def melody : Region := { id := 0, ops := [
  .cc 1 ⟨.Pitch, some 0, 0, 0⟩ (.on 1200), .cc 1 ⟨.Pitch, some 0, 0, 0⟩ (.step 100), .cc 1 ⟨.Pitch, some 0, 0, 0⟩ (.curve 2),
  .depth ⟨.LFO, some 0, 0, 0⟩ ⟨.Pitch, some 0, 0, 0⟩ 30, .cc 1 ⟨.Pitch, some 0, 0, 0⟩ (.on 600),
  .cc 131 ⟨.Volume, some 0, 0, 0⟩ (.on 6)] }

/-- Another region, which uses controller 10 otherwise (`locc10`), and `volume_oncc7=-12`. -/
def drums : Region := { id := 1, ops := [.cc 7 ⟨.Volume, some 1, 0, 0⟩ (.on (-12))], used := fun n => n == 10 }

example : final [melody, drums] melody = [
    ⟨.ctl ⟨none, 1, 2, 0, 100⟩, ⟨.Pitch, some 0, 0, 0⟩, 600, none, 0⟩,
    ⟨.other ⟨.LFO, some 0, 0, 0⟩, ⟨.Pitch, some 0, 0, 0⟩, 30, none, 0⟩,
    ⟨.ctl ⟨some 0, 131, 0, 0, 0⟩, ⟨.Volume, some 0, 0, 0⟩, 6, none, 0⟩,
    ⟨.other ⟨.AmpEG, some 0, 0, 0⟩, ⟨.MasterAmplitude, some 0, 0, 0⟩, 1, none, 0⟩,
    ⟨.ctl ⟨none, 11, 4, 10, 0⟩, ⟨.Amplitude, some 0, 0, 0⟩, 1, none, 0⟩] := by decide +kernel

example : ccSaid 0 1 ⟨.Pitch, some 0, 0, 0⟩ melody.ops = [⟨.ctl ⟨none, 1, 2, 0, 100⟩, ⟨.Pitch, some 0, 0, 0⟩, 600, none, 0⟩] := by
  decide +kernel

example : Uses [melody, drums] 7 ∧ Uses [melody, drums] 10 ∧ ¬ Uses [melody, drums] 11 := by
  refine ⟨⟨drums, by simp, Or.inr ⟨_, _, by simp [drums]; exact ⟨rfl, rfl⟩⟩⟩, ⟨drums, by simp, Or.inl rfl⟩, ?_⟩
  rintro ⟨r, hr, h⟩
  simp only [List.mem_cons, List.not_mem_nil, or_false] at hr
  rcases hr with rfl | rfl
  · rcases h with h | ⟨T, p, h⟩
    · simp [melody] at h
    · simp [melody] at h
  · rcases h with h | ⟨T, p, h⟩
    · simp [drums] at h
    · simp [drums] at h

example : (([melody, drums].map Region.id).Nodup ∧ ∀ r ∈ [melody, drums], ∀ op ∈ r.ops, op.own r.id) ∧
    (ccSaid 0 1 ⟨.Pitch, some 0, 0, 0⟩ melody.ops).map entry =
      [(some (.ctl ⟨none, 1, 2, 0, 100 / 600⟩), 600, none, 0)] := by
  refine ⟨⟨by decide, ?_⟩, by decide +kernel⟩
  intro r hr op ho
  simp only [List.mem_cons, List.not_mem_nil, or_false] at hr
  rcases hr with rfl | rfl
  · simp only [melody, List.mem_cons, List.not_mem_nil, or_false] at ho
    rcases ho with rfl | rfl | rfl | rfl | rfl | rfl <;> rfl
  · simp only [drums, List.mem_cons, List.not_mem_nil, or_false] at ho
    subst ho; rfl

/-- C141 fails for large numbers: the number of a filter, an equalizer, an LFO or an envelope is kept in 8 bits, so what acts
on the cutoff of filter 257 acts on that of filter 1 (and so on); the numbers from 1 to 256 are told apart. -/
theorem numbers_violated : (∀ id region n, 1 ≤ n → numbered id region (n + 256) = numbered id region n) ∧
    (∀ region, (step region [] (.cc 1 (numbered .FilCutoff region 257) (.on 1200))) =
      step region [] (.cc 1 (numbered .FilCutoff region 1) (.on 1200))) ∧
    ∀ id region n m, 1 ≤ n → n ≤ 256 → 1 ≤ m → m ≤ 256 → numbered id region n = numbered id region m → n = m := by
  have h : ∀ id region n, 1 ≤ n → numbered id region (n + 256) = numbered id region n := by
    intro id region n hn
    unfold numbered
    have : (n + 256 - 1) % 256 = (n - 1) % 256 := by omega
    rw [this]
  refine ⟨h, fun region => by rw [show (257 : Nat) = 1 + 256 from rfl, h _ _ 1 (le_refl _)], ?_⟩
  intro id region n m h₁ h₂ h₃ h₄ e
  unfold numbered at e
  have := congrArg ModKey.N e
  simp only at this
  omega

end Verif.Connections
