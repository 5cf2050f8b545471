import Mathlib.Data.List.Basic
import Mathlib.Tactic.SplitIfs

/-!
# C158: which sound the samples of an instrument have

A sample is a file beside the instrument, or embedded in it under a `<sample>` header.  Modelled are `Synth::Impl::handleSampleOpcodes`
(Synth.cpp:555-594), `FilePool::loadFromRam` (FilePool.cpp:413-430), the part of `finalizeSfzLoad` that looks for the samples of the
regions (Synth.cpp:732-767, 806-807, 892-901), `checkSampleId` (FilePool.cpp:234-244), `checkExistingFileInformation` and `getFileInformation`
(282-308), `preloadFile` (310-317), `loadFile` (386-410), `resetPreloadCallCounts` and `removeUnusedPreloadedData` (358-384) and
`getFilePromise` (432-442).

Sounds and names are numbers.  Simplified: the files do not change and have one or two channels; names are exact (FindSample/Model.lean
has the search for other spellings); no region uses its sample as an oscillator, and no sample is silent throughout.  How many frames
are loaded is in Preload/Model.lean.
-/

namespace Verif.Preload.Embedded

/-- `FileId` (FileId.h:17-48). -/
structure Id where
  name : Nat
  reverse : Bool := false
deriving DecidableEq, Repr

/-- `FilePool`. -/
structure Pool where
  /-- `loadedFiles`: the sound, and `preloadCallCount` -/
  loaded : Id → Option (Nat × Nat) := fun _ => none
  /-- `preloadedFiles`: `preloadCallCount`; the sound is that of the file -/
  preloaded : Id → Option Nat := fun _ => none

/-- Replace one value. -/
def put {α : Type} (f : Id → Option α) (i : Id) (x : α) : Id → Option α := fun j => if j = i then some x else f j

/-- What is outside. -/
structure World where
  /-- the sounds of the files -/
  disk : Nat → Option Nat
  /-- the sound has less than `wavetableMaxFrames` frames (Synth.cpp:752) -/
  short : Nat → Bool
  /-- the number of channels of a sound -/
  channels : Nat → Nat

/-- `loadFromRam` (FilePool.cpp:413-430); with another number of channels an empty `optional` is dereferenced (423). -/
def loadFromRam (w : World) (p : Pool) (name sound : Nat) : Option Pool :=
  match p.loaded { name := name } with
  | some _ => some p
  | none =>
    if w.channels sound = 1 ∨ w.channels sound = 2 then some { p with loaded := put p.loaded { name := name } (sound, 1) } else none

/-- The `<sample>` headers, one after the other. -/
def embed (w : World) : Pool → List (Nat × Nat) → Option Pool
  | p, [] => some p
  | p, x :: xs => match loadFromRam w p x.1 x.2 with
    | some p' => embed w p' xs
    | none => none

/-- The sound whose length `getFileInformation` tells (FilePool.cpp:282-308), if the sample is there (234-244). -/
def look (w : World) (p : Pool) (i : Id) : Option Nat :=
  match p.loaded i with
  | some x => some x.1
  | none => w.disk i.name

/-- `loadFile` (FilePool.cpp:386-410) of a sample that is there. -/
def loadFile (p : Pool) (i : Id) (sound : Nat) : Pool :=
  match p.loaded i with
  | some x => { p with loaded := put p.loaded i (x.1, x.2 + 1) }
  | none => { p with loaded := put p.loaded i (sound, 1) }

/-- The regions whose samples are there, with the pool after looking at all (Synth.cpp:732-767). -/
def check (w : World) : Pool → List Id → Pool × List Id
  | p, [] => (p, [])
  | p, i :: is => match look w p i with
    | none => check w p is
    | some sound => ((check w (if w.short sound then loadFile p i sound else p) is).1, i :: (check w (if w.short sound then loadFile p i sound else p) is).2)

/-- `preloadFile` (FilePool.cpp:310-317, 334-353). -/
def preloadFile (p : Pool) (i : Id) : Pool :=
  match p.loaded i with
  | some x => { p with loaded := put p.loaded i (x.1, x.2 + 1) }
  | none => { p with preloaded := put p.preloaded i ((p.preloaded i).getD 0 + 1) }

/-- `resetPreloadCallCounts` (FilePool.cpp:358-365). -/
def reset (p : Pool) : Pool := { loaded := fun i => (p.loaded i).map fun x => (x.1, 0), preloaded := fun i => (p.preloaded i).map fun _ => 0 }

/-- `removeUnusedPreloadedData` (FilePool.cpp:367-384). -/
def remove (p : Pool) : Pool :=
  { loaded := fun i => (p.loaded i).filter fun x => x.2 ≠ 0, preloaded := fun i => (p.preloaded i).filter fun n => n ≠ 0 }

/-- Synth.cpp:892-901. -/
def finalize (p : Pool) (reloading : Bool) (wanted : List Id) : Pool :=
  if reloading then remove (wanted.foldl preloadFile (reset p)) else wanted.foldl preloadFile p

/-- An instrument: its embedded samples, and the samples of its regions. -/
structure Instrument where
  embedded : List (Nat × Nat) := []
  regions : List Id := []

structure Synth where
  pool : Pool := {}
  /-- `lastPath_` -/
  path : Option Nat := none
  /-- the samples of the regions there are -/
  regions : List Id := []

/-- `loadSfzFile` (Synth.cpp:636-663), with `prepareSfzLoad` (608-634); `none` for undefined behaviour. -/
def load (w : World) (s : Synth) (path : Nat) (x : Instrument) : Option Synth :=
  match embed w (if s.path = some path then s.pool else {}) x.embedded with
  | none => none
  | some p => some { pool := finalize (check w p x.regions).1 (s.path = some path) (check w p x.regions).2, path := some path,
                     regions := (check w p x.regions).2 }

/-- Any number of loads. -/
def run (w : World) : Synth → List (Nat × Instrument) → Option Synth
  | s, [] => some s
  | s, x :: xs => match load w s x.1 x.2 with
    | some s' => run w s' xs
    | none => none

/-- The sound of a note with this sample: `getFilePromise` (FilePool.cpp:432-442). -/
def heard (w : World) (s : Synth) (i : Id) : Option Nat :=
  match s.pool.loaded i with
  | some x => some x.1
  | none => match s.pool.preloaded i with
    | some _ => w.disk i.name
    | none => none

/-! ## Specification -/

/-- The sound a name stands for: the sample embedded under it, and else the file. -/
def meant (w : World) (x : Instrument) (name : Nat) : Option Nat :=
  match x.embedded.find? fun y => y.1 = name with
  | some y => some y.2
  | none => w.disk name

/-- Sounds of one or two channels are embedded, and none of them is played backwards. -/
def Plain (w : World) (x : Instrument) : Prop :=
  (∀ y ∈ x.embedded, w.channels y.2 = 1 ∨ w.channels y.2 = 2) ∧ ∀ i ∈ x.regions, i.reverse = true → ∀ y ∈ x.embedded, y.1 ≠ i.name

/-! ## Lemmas -/

/-- What the table says: for a sample played backwards the embedded samples do not count. -/
def spec (w : World) (e : List (Nat × Nat)) (i : Id) : Option Nat :=
  if i.reverse then w.disk i.name else meant w { embedded := e } i.name

/-- What is loaded is what is meant. -/
def Right (w : World) (e : List (Nat × Nat)) (p : Pool) : Prop := ∀ i x, p.loaded i = some x → spec w e i = some x.1

/-- The embedded samples are there. -/
def There (e : List (Nat × Nat)) (p : Pool) : Prop := ∀ y ∈ e, ∃ x, p.loaded { name := y.1 } = some x

theorem put_self {α : Type} (f : Id → Option α) (i : Id) (x : α) : put f i x i = some x := by simp [put]
theorem put_ne {α : Type} (f : Id → Option α) {i j : Id} (x : α) (h : j ≠ i) : put f i x j = f j := by simp [put, h]

variable {w : World}

theorem spec_first {e1 e2 : List (Nat × Nat)} {y : Nat × Nat} (h : ∀ z ∈ e1, z.1 ≠ y.1) : spec w (e1 ++ y :: e2) { name := y.1 } = some y.2 := by
  simp only [spec, Bool.false_eq_true, if_false, meant]
  rw [List.find?_append, List.find?_eq_none.2 (by simpa using fun a b hab => h (a, b) hab)]
  simp

theorem embed_right (e1 : List (Nat × Nat)) : ∀ (e2 : List (Nat × Nat)) (p p' : Pool), embed w p e2 = some p' → Right w (e1 ++ e2) p → There e1 p →
    Right w (e1 ++ e2) p' ∧ There (e1 ++ e2) p' ∧ p'.preloaded = p.preloaded := by
  intro e2
  induction e2 generalizing e1 with
  | nil =>
    intro p p' h hr ht
    simp only [embed, Option.some.injEq] at h
    subst h
    rw [List.append_nil] at hr ⊢
    exact ⟨hr, ht, rfl⟩
  | cons y e2 ih =>
    intro p p' h hr ht
    simp only [embed] at h
    split at h
    swap
    · simp at h
    rename_i q hq
    have key : Right w (e1 ++ y :: e2) q ∧ There (e1 ++ [y]) q ∧ q.preloaded = p.preloaded := by
      simp only [loadFromRam] at hq
      split at hq
      · rename_i x hx
        simp only [Option.some.injEq] at hq
        subst hq
        refine ⟨hr, fun z hz => ?_, rfl⟩
        rcases List.mem_append.1 hz with hz | hz
        · exact ht z hz
        · obtain rfl := List.mem_singleton.1 hz
          exact ⟨x, hx⟩
      · rename_i hx
        split_ifs at hq
        obtain rfl := Option.some.inj hq
        refine ⟨fun i x hi => ?_, fun z hz => ?_, rfl⟩
        · by_cases hc : i = { name := y.1 }
          · subst hc
            simp only [put_self, Option.some.injEq] at hi
            subst hi
            refine spec_first fun z hz hzy => ?_
            obtain ⟨x, h1⟩ := ht z hz
            rw [hzy, hx] at h1
            simp at h1
          · simp only [put_ne _ _ hc] at hi
            exact hr i x hi
        · by_cases hc : z.1 = y.1
          · exact ⟨_, by rw [hc]; exact put_self _ _ _⟩
          · rcases List.mem_append.1 hz with hz | hz
            · obtain ⟨x, h1⟩ := ht z hz
              exact ⟨x, by
                simp only
                rw [put_ne _ _ (by simp [hc])]
                exact h1⟩
            · obtain rfl := List.mem_singleton.1 hz
              exact absurd rfl hc
    obtain ⟨k1, k2, k3⟩ := key
    have := ih (e1 ++ [y]) q p' h (by simpa using k1) k2
    simp only [List.append_assoc, List.singleton_append] at this
    exact ⟨this.1, this.2.1, this.2.2.trans k3⟩

/-- No undefined behaviour. -/
theorem embed_some : ∀ (e : List (Nat × Nat)) (p : Pool), (∀ y ∈ e, w.channels y.2 = 1 ∨ w.channels y.2 = 2) → ∃ p', embed w p e = some p'
  | [], p, _ => ⟨p, rfl⟩
  | y :: ys, p, h => by
    simp only [embed, loadFromRam]
    split
    · exact embed_some ys _ (fun z hz => h z (List.mem_cons_of_mem _ hz))
    · rename_i hc
      exfalso
      revert hc
      split
      · simp
      · rw [if_pos (h y (by simp))]
        simp

/-- What is found is what is meant. -/
theorem look_spec {e : List (Nat × Nat)} {p : Pool} (hr : Right w e p) (ht : There e p) (i : Id) : look w p i = spec w e i := by
  simp only [look]
  split
  · rename_i x hx
    exact (hr i x hx).symm
  · rename_i hn
    simp only [spec]
    split_ifs with hc
    · rfl
    · simp only [meant]
      have : (e.find? fun y => y.1 = i.name) = none := by
        rw [List.find?_eq_none]
        intro y hy hyi
        obtain ⟨x, hx⟩ := ht y hy
        have : ({ name := y.1 } : Id) = i := by
          cases i
          simp at hyi hc
          simp [hyi, hc]
        rw [this, hn] at hx
        simp at hx
      rw [this]

theorem loadFile_right {e : List (Nat × Nat)} {p : Pool} (hr : Right w e p) (ht : There e p) {i : Id} {sound : Nat} (h : look w p i = some sound) :
    Right w e (loadFile p i sound) ∧ There e (loadFile p i sound) := by
  have hl := (look_spec hr ht i).symm.trans h
  simp only [loadFile]
  split
  · rename_i x hx
    refine ⟨fun j y hj => ?_, fun y hy => ?_⟩
    · by_cases hc : j = i
      · subst hc
        simp only [put_self, Option.some.injEq] at hj
        subst hj
        exact hr j x hx
      · simp only [put_ne _ _ hc] at hj
        exact hr j y hj
    · by_cases hc : ({ name := y.1 } : Id) = i
      · exact ⟨_, by rw [hc]; exact put_self _ _ _⟩
      · obtain ⟨z, hz⟩ := ht y hy
        exact ⟨z, (put_ne _ _ hc).trans hz⟩
  · refine ⟨fun j y hj => ?_, fun y hy => ?_⟩
    · by_cases hc : j = i
      · subst hc
        simp only [put_self, Option.some.injEq] at hj
        subst hj
        exact hl
      · simp only [put_ne _ _ hc] at hj
        exact hr j y hj
    · by_cases hc : ({ name := y.1 } : Id) = i
      · exact ⟨_, by rw [hc]; exact put_self _ _ _⟩
      · obtain ⟨z, hz⟩ := ht y hy
        exact ⟨z, (put_ne _ _ hc).trans hz⟩

theorem check_right {e : List (Nat × Nat)} : ∀ (is : List Id) (p : Pool), Right w e p → There e p →
    Right w e (check w p is).1 ∧ There e (check w p is).1 ∧ (check w p is).2 = is.filter fun i => (spec w e i).isSome
  | [], _, hr, ht => ⟨hr, ht, rfl⟩
  | i :: is, p, hr, ht => by
    simp only [check]
    split
    · rename_i hn
      obtain ⟨h1, h2, h3⟩ := check_right is p hr ht
      rw [look_spec hr ht] at hn
      exact ⟨h1, h2, by rw [h3, List.filter_cons]; simp [hn]⟩
    · rename_i sound hs
      have hp : Right w e (if w.short sound then loadFile p i sound else p) ∧ There e (if w.short sound then loadFile p i sound else p) := by
        split_ifs
        · exact loadFile_right hr ht hs
        · exact ⟨hr, ht⟩
      obtain ⟨h1, h2, h3⟩ := check_right is _ hp.1 hp.2
      rw [look_spec hr ht] at hs
      exact ⟨h1, h2, by simp only; rw [h3, List.filter_cons]; simp [hs]⟩

/-- The same sounds, with other counts. -/
def SameSounds (p q : Pool) : Prop := ∀ i, (p.loaded i).map Prod.fst = (q.loaded i).map Prod.fst

/-- The sample is counted. -/
def Counted (p : Pool) (i : Id) : Prop :=
  (∃ x, p.loaded i = some x ∧ 0 < x.2) ∨ (p.loaded i = none ∧ ∃ n, p.preloaded i = some n ∧ 0 < n)

theorem preload_sounds (p : Pool) (i : Id) : SameSounds (preloadFile p i) p := by
  intro j
  simp only [preloadFile]
  split
  · rename_i x hx
    by_cases hc : j = i
    · subst hc
      simp [put_self, hx]
    · simp [put_ne _ _ hc]
  · rfl

theorem preload_counted (p : Pool) (i : Id) : Counted (preloadFile p i) i := by
  simp only [preloadFile]
  split
  · exact Or.inl ⟨_, put_self _ _ _, Nat.succ_pos _⟩
  · rename_i hn
    exact Or.inr ⟨hn, _, put_self _ _ _, Nat.succ_pos _⟩

theorem preload_keeps (p : Pool) (i j : Id) (h : Counted p j) : Counted (preloadFile p i) j := by
  by_cases hc : j = i
  · subst hc
    exact preload_counted p j
  simp only [preloadFile]
  split
  · rcases h with ⟨x, h1, h2⟩ | ⟨h1, n, h2, h3⟩
    · exact Or.inl ⟨x, (put_ne _ _ hc).trans h1, h2⟩
    · exact Or.inr ⟨(put_ne _ _ hc).trans h1, n, h2, h3⟩
  · rcases h with ⟨x, h1, h2⟩ | ⟨h1, n, h2, h3⟩
    · exact Or.inl ⟨x, h1, h2⟩
    · exact Or.inr ⟨h1, n, (put_ne _ _ hc).trans h2, h3⟩

theorem all_keeps : ∀ (is : List Id) (p : Pool), SameSounds (is.foldl preloadFile p) p ∧ (∀ j, Counted p j → Counted (is.foldl preloadFile p) j) ∧
    ∀ j ∈ is, Counted (is.foldl preloadFile p) j
  | [], _ => ⟨fun _ => rfl, fun _ h => h, by simp⟩
  | i :: is, p => by
    obtain ⟨h1, h2, h3⟩ := all_keeps is (preloadFile p i)
    refine ⟨fun j => (h1 j).trans (preload_sounds p i j), fun j hj => h2 j (preload_keeps p i j hj), fun j hj => ?_⟩
    rcases List.mem_cons.1 hj with rfl | hj
    · exact h2 _ (preload_counted p j)
    · exact h3 j hj

theorem remove_counted {p : Pool} {i : Id} (h : Counted p i) : Counted (remove p) i ∧ (remove p).loaded i = p.loaded i := by
  rcases h with ⟨x, h1, h2⟩ | ⟨h1, n, h2, h3⟩
  · have : (remove p).loaded i = some x := by
      simp only [remove, h1, Option.filter_some]
      rw [if_pos (by simpa using Nat.pos_iff_ne_zero.1 h2)]
    exact ⟨Or.inl ⟨x, this, h2⟩, this.trans h1.symm⟩
  · have hn : (remove p).loaded i = none := by simp [remove, h1]
    have hp : (remove p).preloaded i = some n := by
      simp only [remove, h2, Option.filter_some]
      rw [if_pos (by simpa using Nat.pos_iff_ne_zero.1 h3)]
    exact ⟨Or.inr ⟨hn, n, hp, h3⟩, hn.trans h1.symm⟩

/-- The sounds after loading, and what is there is counted. -/
theorem finalize_all (p : Pool) (b : Bool) (is : List Id) :
    (∀ i ∈ is, Counted (finalize p b is) i ∧ ((finalize p b is).loaded i).map Prod.fst = (p.loaded i).map Prod.fst) ∧
    ∀ i x, (finalize p b is).loaded i = some x → (p.loaded i).map Prod.fst = some x.1 := by
  cases b
  · simp only [finalize, Bool.false_eq_true, if_false]
    obtain ⟨h1, _, h3⟩ := all_keeps is p
    exact ⟨fun i hi => ⟨h3 i hi, h1 i⟩, fun i x hx => by rw [← h1 i, hx]; rfl⟩
  · simp only [finalize, if_true]
    obtain ⟨h1, _, h3⟩ := all_keeps is (reset p)
    have hs : ∀ i, ((is.foldl preloadFile (reset p)).loaded i).map Prod.fst = (p.loaded i).map Prod.fst := by
      intro i
      rw [h1 i]
      cases h : p.loaded i <;> simp [reset, h]
    refine ⟨fun i hi => ?_, fun i x hx => ?_⟩
    · obtain ⟨g1, g2⟩ := remove_counted (h3 i hi)
      exact ⟨g1, by rw [g2]; exact hs i⟩
    · simp only [remove, Option.filter_eq_some_iff] at hx
      rw [← hs i, hx.1]
      rfl

theorem spec_plain {x : Instrument} (h : Plain w x) {i : Id} (hi : i ∈ x.regions) : spec w x.embedded i = meant w x i.name := by
  simp only [spec]
  split_ifs with hr
  · simp only [meant]
    have : (x.embedded.find? fun y => y.1 = i.name) = none := by
      rw [List.find?_eq_none]
      intro y hy hyi
      exact h.2 i hi hr y hy (by simpa using hyi)
    rw [this]
  · rfl

/-- Loading with a pool that has nothing wrong in it. -/
theorem load_right {s : Synth} {path : Nat} {x : Instrument} (hp : Plain w x) (h : Right w x.embedded (if s.path = some path then s.pool else {})) :
    ∃ s', load w s path x = some s' ∧ s'.path = some path ∧ Right w x.embedded s'.pool ∧
      s'.regions = x.regions.filter (fun i => (meant w x i.name).isSome) ∧ ∀ i ∈ s'.regions, heard w s' i = meant w x i.name := by
  obtain ⟨p, he⟩ := embed_some x.embedded (if s.path = some path then s.pool else {}) hp.1
  obtain ⟨h1, h2, _⟩ := embed_right [] x.embedded _ p he h (by simp [There])
  simp only [List.nil_append] at h1 h2
  obtain ⟨c1, c2, c3⟩ := check_right x.regions p h1 h2
  obtain ⟨f1, f2⟩ := finalize_all (check w p x.regions).1 (s.path = some path) (check w p x.regions).2
  refine ⟨{ pool := finalize (check w p x.regions).1 (s.path = some path) (check w p x.regions).2, path := some path,
            regions := (check w p x.regions).2 }, by simp only [load, he], rfl, fun i y hy => ?_, ?_, fun i hi => ?_⟩
  · have := f2 i y hy
    obtain ⟨z, hz, hzy⟩ := Option.map_eq_some_iff.1 this
    rw [← hzy]
    exact c1 i z hz
  · simp only
    rw [c3]
    exact List.filter_congr fun i hi => by rw [spec_plain hp hi]
  · simp only at hi
    have hmem : i ∈ x.regions := by
      rw [c3] at hi
      exact (List.mem_filter.1 hi).1
    obtain ⟨g1, g2⟩ := f1 i hi
    rw [← spec_plain hp hmem]
    simp only [heard]
    split
    · rename_i y hy
      have := f2 i y hy
      obtain ⟨z, hz, hzy⟩ := Option.map_eq_some_iff.1 this
      rw [← hzy]
      exact (c1 i z hz).symm
    · rename_i hn
      rcases g1 with ⟨y, hy, _⟩ | ⟨_, n, hn2, _⟩
      · rw [hn] at hy
        simp at hy
      · rw [hn2]
        simp only
        rw [hn] at g2
        have hl : (check w p x.regions).1.loaded i = none := by simpa using g2.symm
        rw [← look_spec c1 c2]
        simp only [look, hl]

/-! ## Properties -/

/-- After loading an instrument from another path, whatever was loaded before, its regions are those whose sample is embedded or is a file,
and each sounds as the sample embedded under its name, or else as the file. Missing: the same when a file is loaded again
(`edited_violated`, `removed_violated`), for embedded samples played backwards (`backwards_violated`) and with other numbers of channels
(`channels_violated`). -/
theorem other_heard_partial {xs : List (Nat × Instrument)} {s : Synth} (_ : run w {} xs = some s) {path : Nat} (ho : s.path ≠ some path)
    {x : Instrument} (hp : Plain w x) :
    ∃ s', load w s path x = some s' ∧ s'.regions = x.regions.filter (fun i => (meant w x i.name).isSome) ∧
      ∀ i ∈ s'.regions, heard w s' i = meant w x i.name := by
  obtain ⟨s', h1, _, _, h2, h3⟩ := load_right (s := s) (path := path) hp (by
    rw [if_neg ho]
    intro i y hy
    simp at hy)
  exact ⟨s', h1, h2, h3⟩

/-- The same holds when a file is loaded again and again while it is edited, as long as its embedded samples stay the same. -/
theorem again_heard_partial {s : Synth} {path : Nat} (ho : s.path ≠ some path) : ∀ (edits : List Instrument) (x : Instrument), Plain w x →
    (∀ y ∈ edits, Plain w y ∧ y.embedded = x.embedded) → ∃ s', run w s ((path, x) :: edits.map fun y => (path, y)) = some s' ∧
      s'.regions = (edits.getLastD x).regions.filter (fun i => (meant w x i.name).isSome) ∧ ∀ i ∈ s'.regions, heard w s' i = meant w x i.name := by
  have same : ∀ {x y : Instrument}, y.embedded = x.embedded → ∀ n, meant w y n = meant w x n := by
    intro x y h n
    simp only [meant, h]
  have more : ∀ (edits : List Instrument) (x : Instrument) (s : Synth), s.path = some path → Right w x.embedded s.pool →
      s.regions = x.regions.filter (fun i => (meant w x i.name).isSome) → (∀ i ∈ s.regions, heard w s i = meant w x i.name) →
      (∀ y ∈ edits, Plain w y ∧ y.embedded = x.embedded) → ∃ s', run w s (edits.map fun y => (path, y)) = some s' ∧
      s'.regions = (edits.getLastD x).regions.filter (fun i => (meant w x i.name).isSome) ∧ ∀ i ∈ s'.regions, heard w s' i = meant w x i.name := by
    intro edits
    induction edits with
    | nil => exact fun x s _ _ h1 h2 _ => ⟨s, rfl, h1, h2⟩
    | cons y ys ih =>
      intro x s hp hr _ _ hall
      obtain ⟨py, ey⟩ := hall y (by simp)
      obtain ⟨s1, g1, g2, g3, g4, g5⟩ := load_right (s := s) (path := path) py (by rw [if_pos hp, ey]; exact hr)
      obtain ⟨s', k1, k2, k3⟩ := ih y s1 g2 g3 g4 g5 (fun z hz => by
        obtain ⟨a, b⟩ := hall z (List.mem_cons_of_mem _ hz)
        exact ⟨a, b.trans ey.symm⟩)
      refine ⟨s', ?_, ?_, ?_⟩
      · simp only [List.map_cons, run, g1]
        exact k1
      · rw [k2, List.getLastD_cons]
        simp only [same ey]
      · intro i hi
        rw [k3 i hi, same ey]
  intro edits x hp hall
  obtain ⟨s1, g1, g2, g3, g4, g5⟩ := load_right (s := s) (path := path) hp (by
    rw [if_neg ho]
    intro i y hy
    simp at hy)
  obtain ⟨s', k1, k2, k3⟩ := more edits x s1 g2 g3 g4 g5 hall
  exact ⟨s', by simp only [run, g1]; exact k1, k2, k3⟩

/-! ## Where the code differs -/

/-- Everything is mono and long, and file 5 has sound 50. -/
def plainWorld : World := { disk := fun n => if n = 5 then some 50 else none, short := fun _ => false, channels := fun _ => 1 }

/-- An embedded sample is edited and the file is loaded again: the old sound is heard. -/
theorem edited_violated : ∃ s, run plainWorld {} [(1, { embedded := [(7, 70)], regions := [{ name := 7 }] }),
    (1, { embedded := [(7, 71)], regions := [{ name := 7 }] })] = some s ∧ heard plainWorld s { name := 7 } = some 70 := ⟨_, rfl, rfl⟩

/-- An embedded sample is taken out of the file, which is loaded again: it still sounds, and hides a file of the same name. -/
theorem removed_violated : ∃ s, run plainWorld {} [(1, { embedded := [(7, 70), (5, 51)], regions := [{ name := 7 }, { name := 5 }] }),
    (1, { regions := [{ name := 7 }, { name := 5 }] })] = some s ∧ s.regions = [{ name := 7 }, { name := 5 }] ∧
    heard plainWorld s { name := 7 } = some 70 ∧ heard plainWorld s { name := 5 } = some 51 := ⟨_, rfl, rfl, rfl, rfl⟩

/-- A region that plays an embedded sample backwards is dropped. -/
theorem backwards_violated : ∃ s, run plainWorld {} [(1, { embedded := [(7, 70)], regions := [{ name := 7, reverse := true }] })] = some s ∧
    s.regions = [] := ⟨_, rfl, rfl⟩

/-- An embedded sample of three channels: undefined behaviour. -/
theorem channels_violated : run { plainWorld with channels := fun _ => 3 } {} [(1, { embedded := [(7, 70)] })] = none := rfl

/-- Two regions with an embedded sample and a file, and one without a sample; then the file without the first region. -/
example : ((run { plainWorld with short := fun d => d = 50 } {} [(1, { embedded := [(7, 70)], regions := [{ name := 7 }, { name := 5 }, { name := 6 }] }),
    (1, { embedded := [(7, 70)], regions := [{ name := 5 }] })]).map fun s =>
      (s.regions, heard plainWorld s { name := 5 }, heard plainWorld s { name := 7 })) = some ([{ name := 5 }], some 50, none) := by rfl

example : Plain plainWorld { embedded := [(7, 70)], regions := [{ name := 7 }, { name := 5, reverse := true }] } := by
  refine ⟨fun _ _ => Or.inl rfl, ?_⟩
  intro i hi hr y hy
  simp only [List.mem_cons, List.not_mem_nil, or_false] at hi hy
  subst hy
  rcases hi with rfl | rfl
  · simp at hr
  · decide

end Verif.Preload.Embedded
