import Verif.Connections.Setup
import Verif.ModMatrix.Props

/-!
C141 and C37 together: the value of a modulated parameter of a voice, from the opcodes of its region.
-/
namespace Verif.Connections
open Verif.ModMatrix (ModKey ModId Builder Conn Target Source Built Buf Graph Ctx Solves indexOf registerSource registerTarget
  registerDepth connect updConns setConn)

/-! ## Specification -/

/-- What a connection contributes to its target at frame `i`: the source times the depth, to which the trigger value adds for
the sources of a voice, and which the modulation of the depth adds to or multiplies. -/
def amount (trigger : ℚ) (mult : Bool) (value : ModKey → Option Buf) (source : Src → Buf) (c : Connection) (i : Nat) : ℚ :=
  let ofVoice := match c.source with
    | .ctl k => k.region.isSome
    | .other k => k.region.isSome
  let d := if ofVoice then c.depth + trigger * c.vel else c.depth
  let d := match c.depthMod.bind value with
    | none => d
    | some m => if mult then d * m i else d + m i
  d * source (sourceKey c) i

/-- The sources that an opcode of a region connects belong to the region, or to no region (the pressure of the channel). -/
def Op.ownSource (id : Nat) : Op → Prop
  | .cc _ _ _ => True
  | .depth s _ _ => s.region = none ∨ s.region = some id
  | .depthMod s _ _ => s.region = none ∨ s.region = some id
  | .vel s _ _ => s.region = none ∨ s.region = some id
  | .make s _ => s.region = none ∨ s.region = some id

/-- The region of a source. -/
def Src.region : Src → Option Nat
  | .ctl k => k.region
  | .other k => k.region

/-! ## What is registered with a key -/

/-- Sources and targets are those of their keys. -/
structure Stamped (srcOf : Src → Source) (tgtOf : Src → Target) (b : Builder Src) : Prop where
  srcs : ∀ p ∈ b.srcs, p.2 = srcOf p.1
  tgts : ∀ p ∈ b.tgts, p.2.region = (tgtOf p.1).region ∧ p.2.multiplicative = (tgtOf p.1).multiplicative

theorem Stamped.source {srcOf : Src → Source} {tgtOf : Src → Target} {b : Builder Src} (h : Stamped srcOf tgtOf b) (k : Src) :
    Stamped srcOf tgtOf (registerSource srcOf b k).2 := by
  unfold registerSource
  split
  · exact h
  · refine ⟨fun p hp => ?_, h.tgts⟩
    rcases List.mem_append.1 hp with hp | hp
    · exact h.srcs p hp
    · simp only [List.mem_singleton] at hp
      subst hp; rfl

theorem Stamped.target {srcOf : Src → Source} {tgtOf : Src → Target} {b : Builder Src} (h : Stamped srcOf tgtOf b) (k : Src) :
    Stamped srcOf tgtOf (registerTarget tgtOf b k).2 := by
  unfold registerTarget
  split
  · exact h
  · refine ⟨h.srcs, fun p hp => ?_⟩
    rcases List.mem_append.1 hp with hp | hp
    · exact h.tgts p hp
    · simp only [List.mem_singleton] at hp
      subst hp; exact ⟨rfl, rfl⟩

theorem Stamped.setup {srcOf : Src → Source} {tgtOf : Src → Target} {b : Builder Src} (h : Stamped srcOf tgtOf b) (c : Connection) :
    Stamped srcOf tgtOf (setupConn srcOf tgtOf b c) := by
  unfold setupConn
  simp only
  have h₁ := (h.source (sourceKey c)).target (.other c.target)
  generalize (registerTarget tgtOf (registerSource srcOf b (sourceKey c)).2 (.other c.target)) = t at h₁
  unfold connect
  split
  · exact h₁
  · have h₂ : Stamped srcOf tgtOf (registerDepth tgtOf t.2 (c.depthMod.map Src.other)).2 := by
      cases c.depthMod with
      | none => exact h₁
      | some k => exact h₁.target (.other k)
    refine ⟨h₂.srcs, fun p hp => ?_⟩
    rcases ModMatrix.updConns_mem hp with hp | ⟨q, hq, rfl⟩
    · exact h₂.tgts p hp
    · exact h₂.tgts q hq

theorem stamped_all (srcOf : Src → Source) (tgtOf : Src → Target) (l : List Connection) : ∀ b : Builder Src,
    Stamped srcOf tgtOf b → Stamped srcOf tgtOf (l.foldl (setupConn srcOf tgtOf) b) := by
  induction l with
  | nil => exact fun b h => h
  | cons c l ih => exact fun b h => ih _ (h.setup c)

theorem setupConn_built (srcOf : Src → Source) (tgtOf : Src → Target) (b : Builder Src) (hb : Built b) (c : Connection) :
    Built (setupConn srcOf tgtOf b c) :=
  ModMatrix.step_built srcOf tgtOf _ (.connect _ _ c.depth (c.depthMod.map Src.other) c.vel)
    (ModMatrix.step_built srcOf tgtOf _ (.target (.other c.target))
      (ModMatrix.step_built srcOf tgtOf b (.source (sourceKey c)) hb))

theorem built_all (srcOf : Src → Source) (tgtOf : Src → Target) (l : List Connection) : ∀ b : Builder Src, Built b →
    Built (l.foldl (setupConn srcOf tgtOf) b) := by
  induction l with
  | nil => exact fun b h => h
  | cons c l ih => exact fun b h => ih _ (setupConn_built srcOf tgtOf b h c)

theorem setup_built (srcOf : Src → Source) (tgtOf : Src → Target) (rs : List Region) :
    Built (setup srcOf tgtOf rs) ∧ Stamped srcOf tgtOf (setup srcOf tgtOf rs) :=
  ⟨built_all srcOf tgtOf _ _ ⟨by simp, by simp, by simp, by simp⟩, stamped_all srcOf tgtOf _ _ ⟨by simp, by simp⟩⟩

/-- A key is registered at one place. -/
theorem keyAt_inj {A : Type} {l : List (Src × A)} (hn : (l.map (·.1)).Nodup) {i j : Nat} {k : Src} (hi : keyAt l i = some k)
    (hj : keyAt l j = some k) : i = j := by
  have h : ∀ m, keyAt l m = (l.map (·.1))[m]? := fun m => by simp [keyAt]
  rw [h] at hi hj
  exact (List.nodup_iff_getElem?_ne_getElem?.1 hn |> fun hh => by
    rcases Nat.lt_trichotomy i j with hlt | rfl | hlt
    · exact absurd (hi.trans hj.symm) (hh i j hlt (List.getElem?_eq_some_iff.1 hj).1)
    · rfl
    · exact absurd (hj.trans hi.symm) (hh j i hlt (List.getElem?_eq_some_iff.1 hi).1))

theorem step_source (id : Nat) (op : Op) (ho : op.ownSource id) (l : List Connection)
    (hl : ∀ c ∈ l, c.source.region = none ∨ c.source.region = some id) :
    ∀ c ∈ step id l op, c.source.region = none ∨ c.source.region = some id := by
  have plain : ∀ (s : ModKey) (T : ModKey) (f : Connection → Connection), (∀ c, (f c).source = c.source) →
      (s.region = none ∨ s.region = some id) →
      ∀ c ∈ onConnection (.other s) T f l, c.source.region = none ∨ c.source.region = some id := by
    intro s T f hf hs
    exact upsert_all (fun c => c.source.region = none ∨ c.source.region = some id) _ _ _ (by rw [hf]; exact hs)
      (fun c _ hc => by rw [hf]; exact hc) l hl
  cases op with
  | cc n t p =>
    show ∀ c ∈ processGenericCc id n t p l, _
    unfold processGenericCc
    split
    · exact hl
    · refine upsert_all (fun c => c.source.region = none ∨ c.source.region = some id) _ _ _ ?_ ?_ l hl
      · obtain ⟨k', a, _, b, _⟩ := setParam_source id p { source := .ctl ⟨none, n, 0, 0, 0⟩, target := t } _ rfl
        rw [a]
        show k'.region = none ∨ k'.region = some id
        rw [b]; split <;> simp
      · intro c hp _
        obtain ⟨k₀, h₀, _⟩ := sameCC_inv hp
        obtain ⟨k', a, _, b, _⟩ := setParam_source id p c k₀ h₀
        rw [a]
        show k'.region = none ∨ k'.region = some id
        rw [b]; split <;> simp
  | depth s t v => exact plain s t (fun c => { c with depth := v }) (fun _ => rfl) ho
  | depthMod s t k => exact plain s t (fun c => { c with depthMod := some k }) (fun _ => rfl) ho
  | vel s t v => exact plain s t (fun c => { c with vel := v }) (fun _ => rfl) ho
  | make s t => exact plain s t (fun c => c) (fun _ => rfl) ho

theorem fold_source (id : Nat) (ops : List Op) : (∀ op ∈ ops, op.ownSource id) → ∀ l : List Connection,
    (∀ c ∈ l, c.source.region = none ∨ c.source.region = some id) →
    ∀ c ∈ ops.foldl (step id) l, c.source.region = none ∨ c.source.region = some id := by
  induction ops with
  | nil => exact fun _ l h => h
  | cons op ops ih =>
    exact fun ho l h => ih (fun x hx => ho x (by simp [hx])) _ (step_source id op (ho op (by simp)) l h)

theorem final_source (rs : List Region) (r : Region) (hr : r ∈ rs) (ho : ∀ op ∈ r.ops, op.ownSource r.id) :
    ∀ c ∈ final rs r, c.source.region = none ∨ c.source.region = some r.id := by
  intro c hc
  rw [final_eq rs r hr] at hc
  rcases List.mem_append.1 hc with hc | hc
  · refine fold_source r.id (r.ops ++ [envelope r]) ?_ [] (by simp) c hc
    intro op hop
    rcases List.mem_append.1 hop with hop | hop
    · exact ho op hop
    · simp only [List.mem_singleton] at hop
      subst hop
      unfold envelope
      cases r.flexAmpEG <;> exact Or.inr rfl
  · unfold extra at hc
    simp only [List.mem_append] at hc
    rcases hc with (hc | hc) | hc <;>
    · split at hc
      · simp at hc
      · simp only [List.mem_singleton] at hc
        subst hc
        exact Or.inl rfl

theorem sourceKey_region (c : Connection) : (sourceKey c).region = c.source.region := by
  unfold sourceKey
  cases c.source with
  | other k => rfl
  | ctl k =>
    show (Controller.prepare c.depth k).region = k.region
    unfold Controller.prepare
    split <;> rfl

/-- C141 with C37: **the value of a modulated parameter, from the opcodes**. For every instrument whose regions have different
numbers and whose opcodes connect sources and parameters of their own region, and every solution of the equations of its
modulation matrix for a voice of a region (`ModMatrix.modulation_values_partial`: these are the values computed in every block,
when there are no cycles): the values belong to the keys, and the value of a parameter of the region is at every frame the sum
(or the product) of what its connections contribute, read from the opcodes: each source times its depth. -/
theorem parameter_values (srcOf : Src → Source) (tgtOf : Src → Target) (mult : ModKey → Bool)
    (hs : ∀ k, (srcOf k).region = k.region) (ht : ∀ T : ModKey, ∀ id, T.region = some id → (tgtOf (.other T)).region = id)
    (hm : ∀ T, (tgtOf (.other T)).multiplicative = mult T)
    (rs : List Region) (hids : (rs.map Region.id).Nodup) (hown : ∀ r ∈ rs, ∀ op ∈ r.ops, op.own r.id ∧ op.ownSource r.id)
    (r : Region) (hr : r ∈ rs) (cx : Ctx) (hcx : cx.region = r.id) (V : Nat → Option Buf) (S : Nat → Buf)
    (hS : Solves (setup srcOf tgtOf rs).graph cx V S) :
    ∃ (value : ModKey → Option Buf) (source : Src → Buf),
      (∀ t T, keyAt (setup srcOf tgtOf rs).tgts t = some (.other T) → V t = value T) ∧
      (∀ i k, keyAt (setup srcOf tgtOf rs).srcs i = some k → S i = source k) ∧
      ∀ t T, keyAt (setup srcOf tgtOf rs).tgts t = some (.other T) → T.region = some r.id →
        value T = some (fun i =>
          let terms := ((final rs r).filter (fun c => decide (c.target = T))).map
            (fun c => amount cx.trigger (mult T) value source c i)
          if mult T then terms.prod else terms.sum) := by
  obtain ⟨hB, hSt⟩ := setup_built srcOf tgtOf rs
  have hview := matrix_connections srcOf tgtOf rs hids (fun r hr op ho => (hown r hr op ho).1) r hr
  have hfs := final_source rs r hr (fun op ho => (hown r hr op ho).2)
  generalize setup srcOf tgtOf rs = b at hB hSt hview hS
  classical
  let value : ModKey → Option Buf := fun T =>
    if h : ∃ t, keyAt b.tgts t = some (.other T) then V h.choose else none
  let source : Src → Buf := fun k => if h : ∃ i, keyAt b.srcs i = some k then S h.choose else fun _ => 0
  have hvalue : ∀ t T, keyAt b.tgts t = some (.other T) → V t = value T := by
    intro t T h
    have hex : ∃ t, keyAt b.tgts t = some (.other T) := ⟨t, h⟩
    show _ = if h : ∃ t, keyAt b.tgts t = some (.other T) then V h.choose else none
    rw [dif_pos hex, keyAt_inj hB.tgtKeys h hex.choose_spec]
  have hsource : ∀ i k, keyAt b.srcs i = some k → S i = source k := by
    intro i k h
    have hex : ∃ i, keyAt b.srcs i = some k := ⟨i, h⟩
    show _ = if h : ∃ i, keyAt b.srcs i = some k then S h.choose else fun _ => 0
    rw [dif_pos hex, keyAt_inj hB.srcKeys h hex.choose_spec]
  refine ⟨value, source, hvalue, hsource, ?_⟩
  clear_value value source
  intro t T hk hT
  obtain ⟨tgt, htgt⟩ : ∃ tgt, b.tgts[t]? = some (.other T, tgt) := by
    unfold keyAt at hk
    cases h : b.tgts[t]? with
    | none => rw [h] at hk; simp at hk
    | some p =>
      rw [h] at hk
      simp only [Option.map_some, Option.some.injEq] at hk
      exact ⟨p.2, by rw [← hk]⟩
  have hmem := List.mem_of_getElem? htgt
  obtain ⟨hreg, hmult⟩ := hSt.tgts _ hmem
  simp only at hreg hmult
  have hg : b.graph.targets[t]? = some tgt := by simp [Builder.graph, htgt]
  have hV := hS.target t tgt hg (by rw [hreg, ht T r.id hT, hcx])
  rw [← hvalue t T hk, hV]
  congr 1
  funext i
  rw [hmult, hm T]
  simp only
  have hconns : tgt.conns.map (decode b) = ((final rs r).filter (fun c => decide (c.target = T))).map entry := by
    rw [← hview T hT]
    unfold view
    rw [connsTo_mem hB.tgtKeys hmem]
  have hok : ∀ c ∈ tgt.conns, c.source < b.srcs.length ∧ ∀ d, c.depthMod = some d → d < b.tgts.length := hB.conns _ hmem
  have hsrcs : ∀ c ∈ (final rs r).filter (fun c => decide (c.target = T)), c.source.region = none ∨ c.source.region = some r.id :=
    fun c hc => hfs c (List.mem_filter.1 hc).1
  generalize (final rs r).filter (fun c => decide (c.target = T)) = L at hconns hsrcs
  have hterms : ∀ (cs : List Conn) (L : List Connection), cs.map (decode b) = L.map entry →
      (∀ c ∈ cs, c.source < b.srcs.length ∧ ∀ d, c.depthMod = some d → d < b.tgts.length) →
      (∀ c ∈ L, c.source.region = none ∨ c.source.region = some r.id) →
      (cs.filter (ModMatrix.counts cx b.graph)).map (fun c => ModMatrix.contribution cx b.graph (mult T) V S c i) =
        L.map (fun c => amount cx.trigger (mult T) value source c i) := by
    intro cs
    induction cs with
    | nil =>
      intro L h _ _
      cases L with
      | nil => rfl
      | cons c L => simp at h
    | cons c cs ih =>
      intro L h h₁ h₂
      cases L with
      | nil => simp at h
      | cons x L =>
        simp only [List.map_cons, List.cons.injEq] at h
        obtain ⟨hd, htl⟩ := h
        have ih := ih L htl (fun y hy => h₁ y (by simp [hy])) (fun y hy => h₂ y (by simp [hy]))
        unfold decode entry at hd
        simp only [Prod.mk.injEq] at hd
        obtain ⟨e₁, e₂, e₃, e₄⟩ := hd
        obtain ⟨src, hsrc⟩ : ∃ src, b.srcs[c.source]? = some (sourceKey x, src) := by
          unfold keyAt at e₁
          cases h : b.srcs[c.source]? with
          | none => rw [h] at e₁; simp at e₁
          | some p =>
            rw [h] at e₁
            simp only [Option.map_some, Option.some.injEq] at e₁
            exact ⟨p.2, by rw [← e₁]⟩
        have hst := hSt.srcs _ (List.mem_of_getElem? hsrc)
        simp only at hst
        have hgs : b.graph.sources[c.source]? = some src := by simp [Builder.graph, hsrc]
        have hregion : src.region = x.source.region := by rw [hst, hs, sourceKey_region]
        have hcount : ModMatrix.counts cx b.graph c = true := by
          unfold ModMatrix.counts
          rw [hgs]
          simp only
          rw [hregion]
          rcases h₂ x (by simp) with h | h <;> simp [h, hcx]
        rw [List.filter_cons, if_pos hcount, List.map_cons, List.map_cons, ih]
        congr 1
        unfold ModMatrix.contribution amount
        simp only [hgs, Option.bind_some]
        have hpv : src.region.isSome = (match x.source with
            | .ctl k => k.region.isSome
            | .other k => k.region.isSome) := by
          rw [hregion]
          cases x.source <;> rfl
        have hdm : c.depthMod.bind V = x.depthMod.bind value := by
          cases hcd : c.depthMod with
          | none =>
            rw [hcd] at e₃
            cases hxd : x.depthMod with
            | none => rfl
            | some k => rw [hxd] at e₃; simp at e₃
          | some d =>
            rw [hcd] at e₃
            simp only [Option.bind_some] at e₃
            have hlt := (h₁ c (by simp)).2 d hcd
            cases hxd : x.depthMod with
            | none =>
              rw [hxd] at e₃
              simp [keyAt, List.getElem?_eq_getElem hlt] at e₃
            | some k =>
              rw [hxd] at e₃
              simp only [Option.map_some] at e₃
              exact hvalue d k e₃
        rw [hpv, hdm, e₂, e₄, hsource _ _ e₁]
        cases x.depthMod.bind value <;> rfl
  rw [hterms tgt.conns L hconns hok hsrcs]

/-- C141: a parameter on which a single controller acts, and which is not the target of anything else, moves with it: its
modulation is the value of the controller times the depth given last. -/
theorem single_controller (srcOf : Src → Source) (tgtOf : Src → Target) (mult : ModKey → Bool)
    (hs : ∀ k, (srcOf k).region = k.region) (ht : ∀ T : ModKey, ∀ id, T.region = some id → (tgtOf (.other T)).region = id)
    (hm : ∀ T, (tgtOf (.other T)).multiplicative = mult T)
    (rs : List Region) (hids : (rs.map Region.id).Nodup) (hown : ∀ r ∈ rs, ∀ op ∈ r.ops, op.own r.id ∧ op.ownSource r.id)
    (r : Region) (hr : r ∈ rs) (cx : Ctx) (hcx : cx.region = r.id) (V : Nat → Option Buf) (S : Nat → Buf)
    (hS : Solves (setup srcOf tgtOf rs).graph cx V S)
    (T : ModKey) (hT : T.region = some r.id) (C : Connection)
    (hone : (final rs r).filter (fun c => decide (c.target = T)) = [C]) (k : Controller.Key) (hC : C.source = .ctl k)
    (hv : C.vel = 0) (hdm : C.depthMod = none)
    (t j : Nat) (ht' : keyAt (setup srcOf tgtOf rs).tgts t = some (.other T))
    (hj : keyAt (setup srcOf tgtOf rs).srcs j = some (sourceKey C)) :
    V t = some (fun i => C.depth * S j i) := by
  obtain ⟨value, source, h₁, h₂, h₃⟩ := parameter_values srcOf tgtOf mult hs ht hm rs hids hown r hr cx hcx V S hS
  rw [h₁ t T ht', h₃ t T ht' hT, h₂ j _ hj]
  congr 1
  funext i
  simp only [hone, List.map_cons, List.map_nil, List.prod_cons, List.prod_nil, mul_one, List.sum_cons, List.sum_nil, add_zero,
    ite_self]
  unfold amount
  simp [hdm, hv, hC]

/-! ## Example -/

/-- Sources with constant values (a controller has the value 1/2, an LFO 1/4), as the generators would write them. -/
def sampleSrc (k : Src) : Source :=
  { region := k.region
    gen := fun _ _ _ _ => match k with
      | .ctl _ => 1 / 2
      | .other _ => 1 / 4 }

def sampleTgt (k : Src) : Target :=
  { region := (match k with
      | .other T => T.region.getD 0
      | .ctl _ => 0)
    multiplicative := match k with
      | .other T => decide (T.id = .Amplitude ∨ T.id = .MasterAmplitude)
      | .ctl _ => false
    conns := [] }

/-- The pitch of the region `melody` is modulated by `600 · 1/2 + 30 · 1/4`, its volume by `6 · 1/2`. -/
example : (let b := setup sampleSrc sampleTgt [melody, drums]
    b.tgts.map (·.1) = [.other ⟨.Pitch, some 0, 0, 0⟩, .other ⟨.Volume, some 0, 0, 0⟩, .other ⟨.MasterAmplitude, some 0, 0, 0⟩,
      .other ⟨.Amplitude, some 0, 0, 0⟩, .other ⟨.Volume, some 1, 0, 0⟩, .other ⟨.MasterAmplitude, some 1, 0, 0⟩,
      .other ⟨.Amplitude, some 1, 0, 0⟩] ∧
    (ModMatrix.valueTo b.graph ⟨5, 0, 1⟩ 1 0).map (fun v => v 3) = some (600 * (1 / 2) + 30 * (1 / 4)) ∧
    (ModMatrix.valueTo b.graph ⟨5, 0, 1⟩ 1 1).map (fun v => v 3) = some (6 * (1 / 2)) ∧
    (ModMatrix.valueTo b.graph ⟨5, 0, 1⟩ 1 4).map (fun v => v 3) = none) := by
  decide +kernel

/-- There is a solution, as `parameter_values` supposes. -/
example : ∃ V S, Solves (setup sampleSrc sampleTgt [melody, drums]).graph ⟨5, 0, 1⟩ V S := by
  have h₁ : ∀ tgt ∈ (setup sampleSrc sampleTgt [melody, drums]).graph.targets, ∀ c ∈ tgt.conns, c.depthMod = none := by
    decide +kernel
  have h₂ : ∀ src ∈ (setup sampleSrc sampleTgt [melody, drums]).graph.sources, src.reads = [] := by decide +kernel
  refine ModMatrix.values_exist _ (fun _ => 0) ?_ _
  intro t tgt h c hc
  refine ⟨fun u hu => ?_, fun src hsrc u hu => ?_⟩
  · rw [h₁ tgt (List.mem_of_getElem? h) c hc] at hu
    simp at hu
  · rw [h₂ src (List.mem_of_getElem? hsrc)] at hu
    simp at hu

end Verif.Connections
