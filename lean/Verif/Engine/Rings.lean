import Verif.Engine.Props
import Mathlib.Data.List.Chain
import Mathlib.Data.List.Induction
import Mathlib.Tactic.IntervalCases

/-! C20: the rings of voices started together. -/
namespace Verif.Engine

/-! ### Histories of starts and ends -/

/-- What happens to the rings: event `b` (a dispatch, with its own builder) starts voice `i`; voice `i` ends. -/
inductive RingEv where
  | play (b i : Nat)
  | stop (i : Nat)

/-- The links, and the head of the builder of each event. -/
structure Rings where
  vm : VM
  heads : Nat → Option Nat := fun _ => none

/-- A start resets the voice (Synth.cpp:1307-1311, Voice.cpp:1700-1726) and hands it to the builder of the event
(SisterVoiceRing.h:138-150); an end resets it. Only the links are followed here. -/
def ringStep (x : Rings) : RingEv → Rings
  | .play b i =>
    let (vm, head) := addToRing (removeFromRing x.vm i) (x.heads b) i
    { vm := vm, heads := Midi.upd x.heads b head }
  | .stop i => { x with vm := removeFromRing x.vm i }

/-- A history, from voices that are all alone. -/
def ringRun (evs : List RingEv) : Rings := evs.foldl ringStep { vm := { size := 0, required := 0 } }

/-! ### Specification -/

/-- The voices event `b` has started that have not ended nor been started again since, in the order of their start. -/
def together (b : Nat) : List RingEv → List Nat :=
  fun evs => evs.foldl (fun L ev => match ev with
    | .play b' i => if b' = b then L.erase i ++ [i] else L.erase i
    | .stop i => L.erase i) []

/-- The first voice event `b` has started. -/
def firstOf (b : Nat) : List RingEv → Option Nat
  | [] => none
  | .play b' i :: evs => if b' = b then some i else firstOf b evs
  | .stop _ :: evs => firstOf b evs

/-- As long as an event starts voices, the first voice it started lasts: it has not ended, and is not started again. -/
def Intact (evs : List RingEv) : Prop :=
  ∀ pre b i post, evs = pre ++ .play b i :: post → ∀ a, firstOf b pre = some a → a ∈ together b pre ∧ i ≠ a

/-! ### Lemmas -/

/-- `a` is followed by `b`. -/
def Link (s : VM) (a b : Nat) : Prop := s.next a = b ∧ s.prev b = a

/-- The voices of the list follow each other, the last one is followed by the first. -/
def Cyc (s : VM) (L : List Nat) : Prop :=
  List.IsChain (Link s) L ∧ ∀ x ∈ L.getLast?, ∀ y ∈ L.head?, Link s x y

theorem cyc_rotate {s : VM} {A B : List Nat} (h : Cyc s (A ++ B)) : Cyc s (B ++ A) := by
  rcases A.eq_nil_or_concat with rfl | ⟨A', z, rfl⟩
  · simpa using h
  rcases B with _ | ⟨y, B'⟩
  · simpa using h
  obtain ⟨h1, h2⟩ := h
  obtain ⟨a1, a2, a3⟩ := List.isChain_append.mp h1
  refine ⟨List.isChain_append.mpr ⟨a2, a1, ?_⟩, ?_⟩
  · intro p hp q hq
    refine h2 p ?_ q ?_
    · rw [List.getLast?_append_of_ne_nil _ (by simp)]; exact hp
    · rw [List.head?_append_of_ne_nil _ (by simp)]; exact hq
  · intro p hp q hq
    rw [List.getLast?_append_of_ne_nil _ (by simp)] at hp
    rw [List.head?_append_of_ne_nil _ (by simp)] at hq
    exact a3 p hp q hq

theorem cyc_around {s : VM} {L : List Nat} (h : Cyc s L) {i : Nat} (hi : i ∈ L) : (∃ p ∈ L, Link s p i) ∧ ∃ n ∈ L, Link s i n := by
  obtain ⟨A, B, rfl⟩ := List.append_of_mem hi
  have hc : Cyc s (i :: (B ++ A)) := by simpa using cyc_rotate h
  have hmem : ∀ j, j ∈ i :: (B ++ A) → j ∈ A ++ i :: B := by intro j; simp; tauto
  constructor
  · obtain ⟨z, hz⟩ : ∃ z, (i :: (B ++ A)).getLast? = some z := ⟨_, List.getLast?_eq_some_getLast (by simp)⟩
    exact ⟨z, hmem _ (List.mem_of_getLast? hz), hc.2 z hz i (by simp)⟩
  · generalize B ++ A = M at hc hmem
    cases M with
    | nil => exact ⟨i, by simp, hc.2 i (by simp) i (by simp)⟩
    | cons y M => exact ⟨y, hmem y (by simp), (List.isChain_cons_cons.mp hc.1).1⟩

theorem remove_link {s : VM} {i a b : Nat} (h : Link s a b) (ha : a ≠ i) (hb : b ≠ i)
    (hp : s.next (s.prev i) = i) (hn : s.prev (s.next i) = i) : Link (removeFromRing s i) a b := by
  have h1 : a ≠ s.prev i := fun e => hb (by rw [← h.1, e, hp])
  have h2 : b ≠ s.next i := fun e => ha (by rw [← h.2, e, hn])
  constructor
  · simp [removeFromRing, Midi.upd, ha, h1, h.1]
  · simp [removeFromRing, Midi.upd, hb, h2, h.2]

theorem remove_join {s : VM} {i p n : Nat} (h1 : Link s p i) (h2 : Link s i n) (hp : p ≠ i) (hn : n ≠ i) : Link (removeFromRing s i) p n := by
  constructor
  · simp [removeFromRing, Midi.upd, hp, h1.2, h2.1]
  · simp [removeFromRing, Midi.upd, hn, h1.2, h2.1]

theorem chain_congr {R R' : Nat → Nat → Prop} {L : List Nat} (h : List.IsChain R L)
    (hR : ∀ a b, a ∈ L → b ∈ L.tail → R a b → R' a b) : List.IsChain R' L := by
  induction L with
  | nil => exact .nil
  | cons x L ih =>
    cases L with
    | nil => exact .singleton _
    | cons y L =>
      obtain ⟨h1, h2⟩ := List.isChain_cons_cons.mp h
      refine List.isChain_cons_cons.mpr ⟨hR x y (by simp) (by simp) h1, ih h2 (fun a b ha hb => hR a b (by simp [ha]) ?_)⟩
      simp only [List.tail_cons] at hb ⊢
      simp [hb]

/-- Removing a voice from the rings. -/
theorem cyc_remove {s : VM} {L : List Nat} (h : Cyc s L) (hn : L.Nodup) (i : Nat) (hp : s.next (s.prev i) = i) (hq : s.prev (s.next i) = i) :
    Cyc (removeFromRing s i) (L.erase i) := by
  by_cases hi : i ∈ L
  · obtain ⟨A, B, rfl⟩ := List.append_of_mem hi
    have hA : i ∉ A := fun h => (List.nodup_append.mp hn).2.2 i h i (by simp) rfl
    have hB : i ∉ B := (List.nodup_cons.mp (List.nodup_append.mp hn).2.1).1
    have he : (A ++ i :: B).erase i = A ++ B := by
      rw [List.erase_append_right _ hA]; simp
    rw [he]
    have hc : Cyc s (i :: (B ++ A)) := by simpa using cyc_rotate h
    apply cyc_rotate
    have hM : i ∉ B ++ A := by simp [hA, hB]
    generalize B ++ A = M at hc hM
    cases M with
    | nil => exact ⟨.nil, by simp⟩
    | cons y M =>
      obtain ⟨c1, c2⟩ := List.isChain_cons_cons.mp hc.1
      refine ⟨chain_congr c2 (fun a b ha hb hab => ?_), ?_⟩
      · exact remove_link hab (fun e => hM (e ▸ ha)) (fun e => hM (e ▸ List.mem_of_mem_tail hb)) hp hq
      · intro z hz w hw
        simp only [List.head?_cons, Option.mem_some_iff] at hw
        subst hw
        refine remove_join (hc.2 z ?_ i (by simp)) c1 (fun e => hM (e ▸ List.mem_of_getLast? hz)) (fun e => hM (by simp [e]))
        rw [List.getLast?_cons_cons]; exact hz
  · rw [List.erase_of_not_mem hi]
    refine ⟨chain_congr h.1 (fun a b ha hb hab => ?_), fun z hz w hw => ?_⟩
    · exact remove_link hab (fun e => hi (e ▸ ha)) (fun e => hi (e ▸ List.mem_of_mem_tail hb)) hp hq
    · exact remove_link (h.2 z hz w hw) (fun e => hi (e ▸ List.mem_of_getLast? hz)) (fun e => hi (e ▸ List.mem_of_head? hw)) hp hq

theorem add_links {s : VM} {head : Option Nat} {i x : Nat} (hx : head.getD i = x) :
    (∀ j, (addToRing s head i).1.next j = if j = s.prev x then i else if j = i then x else s.next j) ∧
    (∀ j, (addToRing s head i).1.prev j = if j = x then i else if j = i then s.prev x else s.prev j) := by
  constructor <;> intro j <;> simp [addToRing, Midi.upd, hx]

/-- Adding a lone voice before the first one of a ring puts it at the end of it. -/
theorem cyc_add {s : VM} {L : List Nat} {x i : Nat} (h : Cyc s L) (hn : L.Nodup) (hx : L.head? = some x) (hi : i ∉ L) (hs : s.next i = i) :
    Cyc (addToRing s (some x) i).1 (L ++ [i]) := by
  obtain ⟨e1, e2⟩ := add_links (s := s) (head := some x) (i := i) (x := x) rfl
  obtain ⟨M, rfl⟩ : ∃ M, L = x :: M := by
    cases L with
    | nil => cases hx
    | cons y M => simp only [List.head?_cons, Option.some.injEq] at hx; subst hx; exact ⟨M, rfl⟩
  have hxM : x ∉ M := (List.nodup_cons.mp hn).1
  have hxi : x ≠ i := fun e => hi (by simp [e])
  obtain ⟨z, hz⟩ : ∃ z, (x :: M).getLast? = some z := ⟨_, List.getLast?_eq_some_getLast (by simp)⟩
  have hzx := h.2 z hz x (by simp)
  have hzi : z ≠ i := fun e => hi (e ▸ List.mem_of_getLast? hz)
  refine ⟨List.isChain_append.mpr ⟨chain_congr h.1 ?_, .singleton _, ?_⟩, ?_⟩
  · intro a b ha hb hab
    have hbx : b ≠ x := fun e => hxM (by rw [← e]; simpa using hb)
    have hbi : b ≠ i := fun e => hi (e ▸ List.mem_of_mem_tail hb)
    have hai : a ≠ i := fun e => hi (e ▸ ha)
    have haz : a ≠ s.prev x := fun e => hbx (by rw [← hab.1, e, hzx.2, hzx.1])
    exact ⟨by rw [e1, if_neg haz, if_neg hai, hab.1], by rw [e2, if_neg hbx, if_neg hbi, hab.2]⟩
  · intro p hp q hq
    simp only [List.head?_cons, Option.mem_some_iff] at hq
    subst hq
    have : p = z := by rw [hz] at hp; exact (Option.some.inj hp).symm
    subst this
    exact ⟨by rw [e1, if_pos hzx.2.symm], by rw [e2, if_neg (fun e => hxi e.symm), if_pos rfl, hzx.2]⟩
  · intro p hp q hq
    have hp' : p = i := by rw [List.getLast?_append_of_ne_nil _ (by simp)] at hp; simpa [eq_comm] using hp
    have hq' : q = x := by simpa [eq_comm] using hq
    subst hp' hq'
    exact ⟨by rw [e1, if_neg (fun e => hzi (by rw [← hzx.2, ← e])), if_pos rfl], by rw [e2, if_pos rfl]⟩

theorem cyc_add_first {s : VM} {i : Nat} (hp : s.prev i = i) : Cyc (addToRing s none i).1 [i] := by
  obtain ⟨e1, e2⟩ := add_links (s := s) (head := none) (i := i) (x := i) rfl
  refine ⟨.singleton _, fun p hq q hq' => ?_⟩
  have h1 : p = i := by simpa [eq_comm] using hq
  have h2 : q = i := by simpa [eq_comm] using hq'
  subst h1 h2
  exact ⟨by rw [e1, hp, if_pos rfl], by rw [e2, if_pos rfl]⟩

/-- The other rings do not change when a voice is added to one. -/
theorem cyc_add_other {s : VM} {L : List Nat} {head : Option Nat} {x i : Nat} (h : Cyc s L) (hx : head.getD i = x) (hxL : x ∉ L) (hi : i ∉ L)
    (hnp : s.next (s.prev x) = x) : Cyc (addToRing s head i).1 L := by
  obtain ⟨e1, e2⟩ := add_links (s := s) hx
  have key : ∀ a b, a ∈ L → b ∈ L → Link s a b → Link (addToRing s head i).1 a b := by
    intro a b ha hb hab
    have hax : a ≠ s.prev x := fun e => hxL (by rw [← hnp, ← e, hab.1]; exact hb)
    exact ⟨by rw [e1, if_neg hax, if_neg (fun e : a = i => hi (e ▸ ha)), hab.1],
      by rw [e2, if_neg (fun e : b = x => hxL (e ▸ hb)), if_neg (fun e : b = i => hi (e ▸ hb)), hab.2]⟩
  exact ⟨chain_congr h.1 (fun a b ha hb => key a b ha (List.mem_of_mem_tail hb)),
    fun z hz w hw => key z w (List.mem_of_getLast? hz) (List.mem_of_head? hw) (h.2 z hz w hw)⟩

/-- The links agree with the history. -/
structure RingInv (x : Rings) (evs : List RingEv) : Prop where
  nodup : ∀ b, (together b evs).Nodup
  cyc : ∀ b, Cyc x.vm (together b evs)
  one : ∀ b b' i, i ∈ together b evs → i ∈ together b' evs → b = b'
  alone : ∀ i, (∀ b, i ∉ together b evs) → x.vm.next i = i ∧ x.vm.prev i = i
  heads : ∀ b, x.heads b = firstOf b evs
  first : ∀ b a, firstOf b evs = some a → a ∈ together b evs → (together b evs).head? = some a
  empty : ∀ b, firstOf b evs = none → together b evs = []

theorem RingInv.closed {x : Rings} {evs : List RingEv} (h : RingInv x evs) (i : Nat) :
    x.vm.next (x.vm.prev i) = i ∧ x.vm.prev (x.vm.next i) = i := by
  by_cases hi : ∃ b, i ∈ together b evs
  · obtain ⟨b, hb⟩ := hi
    obtain ⟨⟨p, _, hp⟩, ⟨n, _, hn⟩⟩ := cyc_around (h.cyc b) hb
    exact ⟨by rw [hp.2, hp.1], by rw [hn.1, hn.2]⟩
  · push Not at hi
    obtain ⟨h1, h2⟩ := h.alone i hi
    exact ⟨by rw [h2, h1], by rw [h1, h2]⟩

theorem together_snoc (b : Nat) (evs : List RingEv) (ev : RingEv) : together b (evs ++ [ev]) =
    match ev with
    | .play b' i => if b' = b then (together b evs).erase i ++ [i] else (together b evs).erase i
    | .stop i => (together b evs).erase i := by
  unfold together
  rw [List.foldl_append]
  cases ev <;> rfl

theorem firstOf_snoc (b : Nat) (evs : List RingEv) (ev : RingEv) : firstOf b (evs ++ [ev]) =
    (firstOf b evs).or (match ev with | .play b' i => if b' = b then some i else none | .stop _ => none) := by
  induction evs with
  | nil => cases ev <;> simp [firstOf]
  | cons e evs ih =>
    cases e with
    | play b' i =>
      simp only [List.cons_append, firstOf]
      split
      · rfl
      · exact ih
    | stop i => exact ih

theorem head_erase {L : List Nat} {a i : Nat} (h : L.head? = some a) (hi : i ≠ a) : (L.erase i).head? = some a := by
  cases L with
  | nil => cases h
  | cons y M =>
    simp only [List.head?_cons, Option.some.injEq] at h
    subst h
    rw [List.erase_cons_tail (by simpa using fun e => hi e.symm)]
    rfl

/-- The links after a voice has been taken out. -/
theorem RingInv.taken {x : Rings} {evs : List RingEv} (h : RingInv x evs) (i : Nat) :
    (∀ b, Cyc (removeFromRing x.vm i) ((together b evs).erase i)) ∧ (removeFromRing x.vm i).next i = i ∧ (removeFromRing x.vm i).prev i = i ∧
    (∀ j, j ≠ i → (∀ b, j ∉ together b evs) → (removeFromRing x.vm i).next j = j ∧ (removeFromRing x.vm i).prev j = j) := by
  refine ⟨fun b => cyc_remove (h.cyc b) (h.nodup b) i (h.closed i).1 (h.closed i).2, ?_, ?_, ?_⟩
  · simp [removeFromRing, Midi.upd]
  · simp [removeFromRing, Midi.upd]
  · intro j hj hb
    obtain ⟨h1, h2⟩ := h.alone j hb
    have := remove_link (s := x.vm) (i := i) (a := j) (b := j) ⟨h1, h2⟩ hj hj (h.closed i).1 (h.closed i).2
    exact ⟨this.1, this.2⟩

theorem RingInv.step {x : Rings} {evs : List RingEv} (h : RingInv x evs) (ev : RingEv)
    (hi : ∀ b i, ev = .play b i → ∀ a, firstOf b evs = some a → a ∈ together b evs ∧ i ≠ a) : RingInv (ringStep x ev) (evs ++ [ev]) := by
  cases ev with
  | stop i =>
    obtain ⟨t1, t2, t3, t4⟩ := h.taken i
    have hm : ∀ b j, j ∈ together b (evs ++ [.stop i]) ↔ j ∈ together b evs ∧ j ≠ i := by
      intro b j; rw [together_snoc]; simp only [(h.nodup b).mem_erase_iff]; tauto
    have hf : ∀ b, firstOf b (evs ++ [.stop i]) = firstOf b evs := by intro b; rw [firstOf_snoc]; simp
    refine ⟨?_, ?_, ?_, ?_, ?_, ?_, ?_⟩
    · intro b; rw [together_snoc]; exact (h.nodup b).erase i
    · intro b; rw [together_snoc]; exact t1 b
    · intro b b' j hj hj'; exact h.one b b' j ((hm b j).mp hj).1 ((hm b' j).mp hj').1
    · intro j hj
      by_cases hji : j = i
      · subst hji; exact ⟨t2, t3⟩
      · exact t4 j hji (fun b hb => hj b ((hm b j).mpr ⟨hb, hji⟩))
    · intro b; rw [hf]; exact h.heads b
    · intro b a ha hm'
      rw [hf] at ha
      obtain ⟨q1, q2⟩ := (hm b a).mp hm'
      rw [together_snoc]
      exact head_erase (h.first b a ha q1) (fun e => q2 e.symm)
    · intro b hb
      rw [hf] at hb
      rw [together_snoc]; simp [h.empty b hb]
  | play b0 i =>
    obtain ⟨t1, t2, t3, t4⟩ := h.taken i
    have hi' := hi b0 i rfl
    have hm : ∀ b j, j ∈ together b (evs ++ [.play b0 i]) ↔ (j ∈ together b evs ∧ j ≠ i) ∨ (b = b0 ∧ j = i) := by
      intro b j; rw [together_snoc]
      simp only
      split
      · rename_i e; subst e; simp only [List.mem_append, (h.nodup b0).mem_erase_iff, List.mem_singleton, true_and]; tauto
      · rename_i e; simp only [(h.nodup b).mem_erase_iff]; have : ¬ b = b0 := fun h => e h.symm
        tauto
    have hf : ∀ b, firstOf b (evs ++ [.play b0 i]) = (firstOf b evs).or (if b0 = b then some i else none) := fun b => firstOf_snoc b evs _
    have hni : ∀ b, i ∉ (together b evs).erase i := fun b => by simp [(h.nodup b).mem_erase_iff]
    -- the ring the voice joins
    have hjoin : ∃ y, (x.heads b0).getD i = y ∧ (y = i ∨ y ∈ (together b0 evs).erase i) ∧
        Cyc (addToRing (removeFromRing x.vm i) (x.heads b0) i).1 ((together b0 evs).erase i ++ [i]) := by
      rw [h.heads b0]
      cases hfb : firstOf b0 evs with
      | none =>
        refine ⟨i, rfl, Or.inl rfl, ?_⟩
        rw [h.empty b0 hfb]
        exact cyc_add_first t3
      | some a =>
        obtain ⟨a1, a2⟩ := hi' a hfb
        refine ⟨a, rfl, Or.inr ((h.nodup b0).mem_erase_iff.mpr ⟨fun e => a2 e.symm, a1⟩), ?_⟩
        exact cyc_add (t1 b0) ((h.nodup b0).erase i) (head_erase (h.first b0 a hfb a1) a2) (hni b0) t2
    obtain ⟨y, y1, y2, y3⟩ := hjoin
    have hnp : (removeFromRing x.vm i).next ((removeFromRing x.vm i).prev y) = y := by
      rcases y2 with rfl | y2
      · rw [t3, t2]
      · obtain ⟨⟨p, _, hp⟩, _⟩ := cyc_around (t1 b0) y2
        rw [hp.2, hp.1]
    refine ⟨?_, ?_, ?_, ?_, ?_, ?_, ?_⟩
    · intro b; rw [together_snoc]
      simp only
      split
      · refine List.nodup_append.mpr ⟨(h.nodup b).erase i, by simp, ?_⟩
        intro p hp q hq e
        simp only [List.mem_singleton] at hq
        subst hq; subst e; exact hni b hp
      · exact (h.nodup b).erase i
    · intro b; rw [together_snoc]
      simp only
      split
      · rename_i e; subst e; exact y3
      · rename_i e
        refine cyc_add_other (t1 b) y1 ?_ (hni b) hnp
        intro hy
        rcases y2 with rfl | y2
        · exact hni b hy
        · exact e (h.one b0 b y (List.mem_of_mem_erase y2) (List.mem_of_mem_erase hy))
    · intro b b' j hj hj'
      rcases (hm b j).mp hj with ⟨q1, q2⟩ | ⟨q1, q2⟩ <;> rcases (hm b' j).mp hj' with ⟨r1, r2⟩ | ⟨r1, r2⟩
      · exact h.one b b' j q1 r1
      · exact absurd r2 q2
      · exact absurd q2 r2
      · rw [q1, r1]
    · intro j hj
      have hji : j ≠ i := fun e => hj b0 ((hm b0 j).mpr (Or.inr ⟨rfl, e⟩))
      have hjb : ∀ b, j ∉ together b evs := fun b hb => hj b ((hm b j).mpr (Or.inl ⟨hb, hji⟩))
      obtain ⟨k1, k2⟩ := t4 j hji hjb
      have hjy : y ≠ j := by
        rcases y2 with rfl | y2
        · exact fun e => hji e.symm
        · exact fun e => hjb b0 (e ▸ List.mem_of_mem_erase y2)
      have hc := cyc_add_other (s := removeFromRing x.vm i) (L := [j]) (head := x.heads b0) (i := i) (x := y)
        ⟨.singleton _, fun p hp q hq => by
          have e1 : p = j := by simpa [eq_comm] using hp
          have e2 : q = j := by simpa [eq_comm] using hq
          subst e1 e2; exact ⟨k1, k2⟩⟩ y1 (by simpa using hjy) (by simpa using fun e => hji e.symm) hnp
      exact hc.2 j (by simp) j (by simp)
    · intro b
      rw [hf]
      show Midi.upd x.heads b0 (some ((x.heads b0).getD i)) b = _
      by_cases hb : b = b0
      · subst hb
        rw [upd_same, h.heads b]
        cases firstOf b evs <;> simp
      · rw [upd_other _ hb, h.heads b, if_neg (fun e => hb e.symm)]; simp
    · intro b a ha hma
      rw [hf] at ha
      rw [together_snoc]
      simp only
      split
      · rename_i e
        subst e
        cases hfb : firstOf b0 evs with
        | none =>
          rw [hfb] at ha
          simp only [if_true, Option.none_or, Option.some.injEq] at ha
          subst ha
          simp [h.empty b0 hfb]
        | some a' =>
          rw [hfb] at ha
          simp only [Option.some_or, Option.some.injEq] at ha
          subst ha
          obtain ⟨a1, a2⟩ := hi' a' hfb
          have := head_erase (h.first b0 a' hfb a1) a2
          rw [List.head?_append, this]; rfl
      · rename_i e
        rw [if_neg e] at ha
        simp only [Option.or_none] at ha
        rcases (hm b a).mp hma with ⟨q1, q2⟩ | ⟨q1, _⟩
        · exact head_erase (h.first b a ha q1) (fun e => q2 e.symm)
        · exact absurd q1.symm e
    · intro b hb
      rw [hf] at hb
      simp only [Option.or_eq_none_iff] at hb
      rw [together_snoc]
      have hne : ¬ b0 = b := fun e => by simp [e] at hb
      simp only [if_neg hne, h.empty b hb.1]
      rfl

theorem ring_inv (evs : List RingEv) (h : Intact evs) : RingInv (ringRun evs) evs := by
  induction evs using List.reverseRecOn with
  | nil => exact ⟨fun _ => .nil, fun _ => ⟨.nil, by simp [together]⟩, fun _ _ _ h => by simp [together] at h, fun _ _ => ⟨rfl, rfl⟩,
      fun _ => rfl, fun _ _ h => by simp [firstOf] at h, fun _ _ => rfl⟩
  | append_singleton evs ev ih =>
    have h1 : Intact evs := fun pre b i post e => h pre b i (post ++ [ev]) (by simp [e])
    have : ringRun (evs ++ [ev]) = ringStep (ringRun evs) ev := by simp [ringRun]
    rw [this]
    exact (ih h1).step ev (fun b i e => h evs b i [] (by simp [e]))

theorem ringFrom_chain (s : VM) (i : Nat) : ∀ (M : List Nat) (p : Nat), List.IsChain (Link s) (p :: M) → i ∉ M →
    (∀ z ∈ (p :: M).getLast?, Link s z i) → ∀ fuel, M.length < fuel → ringFrom s i fuel (s.next p) = some M := by
  intro M
  induction M with
  | nil =>
    intro p _ _ hz fuel hf
    cases fuel with
    | zero => simp at hf
    | succ f => rw [ringFrom, (hz p (by simp)).1, if_pos rfl]
  | cons y M ih =>
    intro p hc hi hz fuel hf
    obtain ⟨c1, c2⟩ := List.isChain_cons_cons.mp hc
    cases fuel with
    | zero => simp at hf
    | succ f =>
      simp only [List.mem_cons, not_or] at hi
      rw [ringFrom, c1.1, if_neg (fun e => hi.1 e.symm), ih y c2 hi.2 (fun z h => hz z (by rw [List.getLast?_cons_cons]; exact h)) f
        (by simpa using hf)]
      rfl

/-! ### Theorems -/

/-- C20: as long as the first voice of an event lasts until its last one starts, walking the ring from a voice visits exactly the
voices started by the same event that have not ended, once each, in the order of their start, and comes back; a voice that has
ended is alone. -/
theorem rings_partial (evs : List RingEv) (h : Intact evs) :
    (∀ b A i B, together b evs = A ++ i :: B → ∀ fuel, (A ++ i :: B).length ≤ fuel →
      (ringFrom (ringRun evs).vm i fuel ((ringRun evs).vm.next i)) = some (B ++ A)) ∧
    (∀ b, (together b evs).Nodup) ∧
    (∀ i, (∀ b, i ∉ together b evs) → (ringRun evs).vm.next i = i) := by
  have hi := ring_inv evs h
  refine ⟨?_, hi.nodup, fun i h => (hi.alone i h).1⟩
  intro b A i B e fuel hf
  have hc : Cyc (ringRun evs).vm (i :: (B ++ A)) := by
    have := hi.cyc b
    rw [e] at this
    simpa using cyc_rotate this
  have hn := hi.nodup b
  rw [e] at hn
  have hnot : i ∉ B ++ A := by
    have := (List.nodup_append.mp hn)
    simp only [List.mem_append, not_or]
    exact ⟨(List.nodup_cons.mp this.2.1).1, fun h => this.2.2 i h i (by simp) rfl⟩
  refine ringFrom_chain _ i (B ++ A) i hc.1 hnot (fun z hz => hc.2 z hz i (by simp)) fuel ?_
  simp only [List.length_append, List.length_cons] at hf ⊢
  omega

/-- Two events: the first starts voices 3, 1, 4 and 5, the second voice 2; then 1 ends and is taken by a third event. -/
def sisters : List RingEv := [.play 0 3, .play 0 1, .play 0 4, .play 1 2, .play 0 5, .stop 1, .play 2 1]

theorem intact_of (evs : List RingEv)
    (h : ∀ k, k < evs.length → match evs[k]? with
      | some (.play b i) => ∀ a ∈ firstOf b (evs.take k), a ∈ together b (evs.take k) ∧ i ≠ a
      | _ => True) : Intact evs := by
  intro pre b i post e a ha
  have := h pre.length (by simp [e])
  rw [e] at this
  simp at this
  exact this a ha

/-- The hypothesis of `rings_partial` holds for it; the ring of voice 4 is 5, 3 and itself. -/
example : Intact sisters ∧ together 0 sisters = [3, 4, 5] ∧ ringFrom (ringRun sisters).vm 4 6 ((ringRun sisters).vm.next 4) = some [5, 3] := by
  refine ⟨intact_of _ (fun k hk => ?_), by decide, by decide⟩
  simp only [sisters, List.length_cons, List.length_nil] at hk
  interval_cases k <;> simp [sisters, firstOf, together]

/-! ### The engine -/

theorem ringFrom_iter (s : VM) (start : Nat) : ∀ (fuel v : Nat) (M : List Nat), ringFrom s start fuel v = some M →
    M = (List.range M.length).map (fun k => s.next^[k] v) ∧ (∀ k, k < M.length → s.next^[k] v ≠ start) ∧ s.next^[M.length] v = start := by
  intro fuel
  induction fuel with
  | zero => intro v M h; cases h
  | succ f ih =>
    intro v M h
    rw [ringFrom] at h
    split at h
    · rename_i hv
      cases h
      exact ⟨rfl, fun k hk => absurd hk (by simp), hv⟩
    · rename_i hv
      obtain ⟨M', h1, rfl⟩ := Option.map_eq_some_iff.mp h
      obtain ⟨a, b, d⟩ := ih _ _ h1
      refine ⟨?_, ?_, ?_⟩
      · rw [List.length_cons, List.range_succ_eq_map, List.map_cons, List.map_map]
        congr 1
      · intro k hk
        cases k with
        | zero => exact hv
        | succ k => exact b k (by simpa using hk)
      · exact d

theorem ringFrom_nodup (s : VM) (start fuel v : Nat) (M : List Nat) (h : ringFrom s start fuel v = some M) : (M ++ [start]).Nodup := by
  obtain ⟨a, b, d⟩ := ringFrom_iter s start fuel v M h
  have inj : ∀ k k', k < k' → k' < M.length → s.next^[k] v ≠ s.next^[k'] v := by
    intro k k' hk hk' e
    have h1 : s.next^[M.length - k' + k'] v = s.next^[M.length - k' + k] v := by
      rw [Function.iterate_add_apply, Function.iterate_add_apply, e]
    have h2 : M.length - k' + k' = M.length := by omega
    rw [h2, d] at h1
    exact b (M.length - k' + k) (by omega) h1.symm
  refine List.nodup_append.mpr ⟨?_, by simp, ?_⟩
  · rw [a]
    refine List.Nodup.map_on ?_ List.nodup_range
    intro x hx y hy e
    simp only [List.mem_range] at hx hy
    rcases Nat.lt_trichotomy x y with h | h | h
    · exact absurd e (inj x y h hy)
    · exact h
    · exact absurd e.symm (inj y x h hx)
  · intro x hx y hy e
    simp only [List.mem_singleton] at hy
    subst hy; subst e
    rw [a] at hx
    simp only [List.mem_map, List.mem_range] at hx
    obtain ⟨k, hk, hx⟩ := hx
    exact b k hk hx

/-- The ring of a voice holds the voices reached by following the links from it. -/
theorem ringOf_mem {s : VM} {i : Nat} {l : List Nat} (h : ringOf s i = some l) (j : Nat) : j ∈ l ↔ ∃ n, j = s.next^[n] i := by
  obtain ⟨M, h1, rfl⟩ := Option.map_eq_some_iff.mp h
  obtain ⟨a, b, d⟩ := ringFrom_iter s i _ _ M h1
  have hper : s.next^[M.length + 1] i = i := by rw [Function.iterate_succ_apply]; exact d
  constructor
  · intro hj
    rcases List.mem_append.mp hj with hj | hj
    · rw [a] at hj
      simp only [List.mem_map, List.mem_range] at hj
      obtain ⟨k, _, hk⟩ := hj
      exact ⟨k + 1, by rw [Function.iterate_succ_apply]; exact hk.symm⟩
    · simp at hj; exact ⟨0, hj⟩
  · rintro ⟨n, rfl⟩
    have hm : s.next^[n] i = s.next^[n % (M.length + 1)] i := by
      have hmul : ∀ q, s.next^[(M.length + 1) * q] i = i := by
        intro q
        induction q with
        | zero => rfl
        | succ q ih => rw [Nat.mul_succ, Function.iterate_add_apply, hper, ih]
      conv_lhs => rw [← Nat.mod_add_div n (M.length + 1), Function.iterate_add_apply, hmul]
    rw [hm]
    have hlt := Nat.mod_lt n (Nat.succ_pos M.length)
    generalize n % (M.length + 1) = r at hlt
    cases r with
    | zero => simp
    | succ r =>
      refine List.mem_append.mpr (Or.inl ?_)
      rw [a, Function.iterate_succ_apply]
      exact List.mem_map.mpr ⟨r, by simp; omega, rfl⟩

/-- C20, for every history of the engine: the ring of every voice that plays can be walked, holds the voice and only voices
that play, each once; and the rings are disjoint: every voice of it has the same ring. -/
theorem rings_close (c : Cfg) (m : Midi.State) (sw : Option Int) (n : Nat) (gl sl : Nat → Nat) (ops : List Op) (h : Sane c n gl sl ops) :
    ∃ s, run c (load c m sw n gl sl) ops = some s ∧ ∀ i, (s.vm.voices i).layer ≠ none →
      ∃ l, ringOf s.vm i = some l ∧ l.Nodup ∧ i ∈ l ∧ (∀ j ∈ l, (s.vm.voices j).layer ≠ none) ∧
        ∀ j ∈ l, ∃ l', ringOf s.vm j = some l' ∧ ∀ x, x ∈ l' ↔ x ∈ l := by
  obtain ⟨s, h1, h2, _⟩ := reachable_ok m sw n gl sl ops h
  refine ⟨s, h1, fun i hi => ?_⟩
  obtain ⟨l, l1, l2, l3⟩ := h2.ringOf_some c.toEnv hi
  have hlive : ∀ j ∈ l, (s.vm.voices j).layer ≠ none := by
    intro j hj
    obtain ⟨k, rfl⟩ := l3 j hj
    exact h2.iter_nonidle c.toEnv hi k
  refine ⟨l, l1, ?_, l2, hlive, ?_⟩
  · obtain ⟨M, m1, rfl⟩ := Option.map_eq_some_iff.mp l1
    exact ringFrom_nodup _ _ _ _ _ m1
  · intro j hj
    obtain ⟨l', q1, _, _⟩ := h2.ringOf_some c.toEnv (hlive j hj)
    refine ⟨l', q1, fun x => ?_⟩
    rw [ringOf_mem q1, ringOf_mem l1]
    obtain ⟨k, hk⟩ := l3 j hj
    obtain ⟨M, m1, hM⟩ := Option.map_eq_some_iff.mp q1
    constructor
    · rintro ⟨r, rfl⟩
      exact ⟨r + k, by rw [Function.iterate_add_apply, ← hk]⟩
    · rintro ⟨r, rfl⟩
      -- `j` comes back to `i`
      obtain ⟨p, hp, hcl⟩ := h2.ring_closes c.toEnv hi
      have hback : ∃ t, i = s.vm.next^[t] j := by
        have hmul : ∀ q, s.vm.next^[(p + 1) * q] i = i := by
          intro q
          induction q with
          | zero => rfl
          | succ q ih => rw [Nat.mul_succ, Function.iterate_add_apply, hcl, ih]
        refine ⟨(p + 1) * k - k, ?_⟩
        rw [hk, ← Function.iterate_add_apply]
        have : (p + 1) * k - k + k = (p + 1) * k := Nat.sub_add_cancel (Nat.le_mul_of_pos_left k (by omega))
        rw [this, hmul]
      obtain ⟨t, ht⟩ := hback
      exact ⟨r + t, by rw [Function.iterate_add_apply, ← ht]⟩

/-- Six regions on every key. -/
def six : Cfg := demo [{}, {}, {}, {}, {}, {}]

/-- C20, with room for all of them: the ring of one of the voices is the six voices. -/
example : (run six (demoLoad six 8 20) [.noteOn 0 60 1]).bind (fun s => ringOf s.vm 2) = some [3, 4, 5, 0, 1, 2] := by decide +kernel

/-- Violated: with a polyphony of one (five voices) the sixth region takes the voice of the first one while the note is started. The
voice that starts is then alone, and the voices started by the same note do not reach it. -/
theorem sisters_split_violated :
    (run six (demoLoad six 1 20) [.noteOn 0 60 1]).map (fun s => ((List.range s.vm.size).map (fun i => (s.vm.voices i).trig.number),
      (s.vm.voices 0).layer, [ringOf s.vm 0, ringOf s.vm 1])) =
    some ([60, 60, 60, 60, 60], some 5, [some [0], some [2, 3, 4, 1]]) := by decide +kernel

end Verif.Engine
