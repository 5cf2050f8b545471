import Verif.Preload.Model
import Mathlib.Data.List.Nodup
import Mathlib.Tactic.SplitIfs
import Mathlib.Tactic.Ring

/-!
# C157: the beginning of every sample is in memory

After every call, the samples of the instrument that is loaded, and no others, are in memory: in full if the instrument asks for this,
and else up to the preload size after the greatest offset a note starts at.
-/

namespace Verif.Preload

/-! ## Specification -/

/-- What the settings of the user ask for: `n` frames in memory of a file of `frames`, for notes starting at `offset`. -/
def Enough (frames : Nat) (ram : Bool) (size offset n : Nat) : Prop :=
  (ram = true → n = frames) ∧ (∀ k < frames, k < offset + size → k < n)

/-- Offsets are at most 2^31 - 1 (Region/Props.lean), and the preload sizes are reasonable. -/
def Sane : Op → Prop
  | .load _ _ wanted => (wanted.map Sample.file).Nodup ∧ ∀ x ∈ wanted, x.offset < 2 ^ 31
  | .fail _ _ => True
  | .size n => n ≤ 2 ^ 31

/-- The samples have frames, and their numbers fit in 32 bits. -/
def Disk (disk : Nat → Nat) : Prop := ∀ f, 0 < disk f ∧ disk f < 2 ^ 32

/-! ## Lemmas -/

variable {disk : Nat → Nat}

/-- An entry outside of the RAM mode. -/
def Streamed (disk : Nat → Nat) (size f : Nat) (e : Entry) : Prop :=
  e.loaded = min (disk f) (e.maxOffset + size) ∧ (e.full = true → e.loaded = disk f) ∧ e.maxOffset < 2 ^ 31

structure Inv (disk : Nat → Nat) (s : Synth) : Prop where
  size : s.pool.size ≤ 2 ^ 31
  keys : ∀ f, (s.pool.files f).isSome ↔ f ∈ s.current.map Sample.file
  ram : s.pool.ram = true → ∀ x ∈ s.current, ∀ e, s.pool.files x.file = some e →
    e.loaded = disk x.file ∧ e.maxOffset = x.offset ∧ e.maxOffset < 2 ^ 31
  stream : s.pool.ram = false → ∀ f e, s.pool.files f = some e → Streamed disk s.pool.size f e

/-- During a load. -/
structure Mid (disk : Nat → Nat) (p0 p : Pool) : Prop where
  size : p.size = p0.size
  keys : ∀ f, (p.files f).map Entry.maxOffset = (p0.files f).map Entry.maxOffset
  small : ∀ f e, p.files f = some e → e.maxOffset < 2 ^ 31
  ram : p.ram = true → ∀ f e, p.files f = some e → e.loaded + 1 = disk f
  stream : p.ram = false → ∀ f e, p.files f = some e → Streamed disk p.size f e

theorem put_self (p : Pool) (f : Nat) (e : Entry) : (p.put f e).files f = some e := by simp [Pool.put]
theorem put_ne (p : Pool) {f g : Nat} (e : Entry) (h : g ≠ f) : (p.put f e).files g = p.files g := by simp [Pool.put, h]

theorem resize_streamed {size f : Nat} {e : Entry} (h : e.maxOffset < 2 ^ 31) : Streamed disk size f (resize disk size f e) := by
  refine ⟨rfl, fun hf => ?_, h⟩
  simp only [resize, decide_eq_true_eq] at hf ⊢
  exact hf.symm

theorem last_frame {n : Nat} (h : 0 < n) : lastFrame n + 1 = n := by
  simp only [lastFrame]
  split_ifs <;> omega

theorem setSize_mid {p0 p : Pool} (h : Mid disk p0 p) : Mid disk p0 (setSize disk { p with ram := false } p.size) := by
  simp only [setSize, Bool.false_eq_true, if_false]
  refine ⟨h.size, fun f => ?_, ?_, by simp [Pool.change], ?_⟩
  · rw [← h.keys f]
    cases e : p.files f <;> simp [Pool.change, e, resize]
  · intro f e he
    simp only [Pool.change, Option.map_eq_some_iff] at he
    obtain ⟨e0, h0, rfl⟩ := he
    exact h.small f e0 h0
  · intro _ f e he
    simp only [Pool.change, Option.map_eq_some_iff] at he
    obtain ⟨e0, h0, rfl⟩ := he
    exact resize_streamed (h.small f e0 h0)

theorem setRam_mid (hd : Disk disk) {p0 p : Pool} (h : Mid disk p0 p) (b : Bool) : Mid disk p0 (setRam disk p b) := by
  simp only [setRam]
  by_cases hb : b = p.ram
  · rw [if_pos hb]; exact h
  rw [if_neg hb]
  cases b
  · simp only [Bool.false_eq_true, if_false]
    exact setSize_mid h
  · simp only [if_true]
    refine ⟨h.size, fun f => ?_, ?_, ?_, by simp⟩
    · rw [← h.keys f]
      cases e : p.files f <;> simp [Pool.change, e, toRam]
    · intro f e he
      simp only [Pool.change, Option.map_eq_some_iff] at he
      obtain ⟨e0, h0, rfl⟩ := he
      simp only [toRam]
      exact h.small f e0 h0
    · intro _ f e he
      simp only [Pool.change, Option.map_eq_some_iff] at he
      obtain ⟨e0, h0, rfl⟩ := he
      obtain ⟨h1, _⟩ := hd f
      exact last_frame h1

theorem hints_mid (hd : Disk disk) {p0 : Pool} : ∀ (values : List Bool) (p : Pool), Mid disk p0 p → Mid disk p0 (hints disk p values)
  | [], _, h => h
  | b :: bs, p, h => hints_mid hd bs (setRam disk p b) (setRam_mid hd h b)

theorem off_mid {s : Synth} (hi : Inv disk s) : Mid disk s.pool (setRam disk s.pool false) := by
  have off : ∀ f e, s.pool.files f = some e → e.maxOffset < 2 ^ 31 := by
    intro f e he
    cases hr : s.pool.ram
    · exact (hi.stream hr f e he).2.2
    · have hk := (hi.keys f).1 (by simp [he])
      obtain ⟨x, hx, rfl⟩ := List.mem_map.1 hk
      exact (hi.ram hr x hx e he).2.2
  cases hr : s.pool.ram
  · simp only [setRam, hr, if_true]
    exact ⟨rfl, fun _ => rfl, off, by simp [hr], fun _ => hi.stream hr⟩
  · simp only [setRam, hr, Bool.false_eq_true, if_false, setSize]
    refine ⟨rfl, fun f => ?_, ?_, by simp [Pool.change], ?_⟩
    · cases e : s.pool.files f <;> simp [Pool.change, e, resize]
    · intro f e he
      simp only [Pool.change, Option.map_eq_some_iff] at he
      obtain ⟨e0, h0, rfl⟩ := he
      exact off f e0 h0
    · intro _ f e he
      simp only [Pool.change, Option.map_eq_some_iff] at he
      obtain ⟨e0, h0, rfl⟩ := he
      exact resize_streamed (off f e0 h0)

/-- What is in the pool before the samples are loaded: what was there if the same file is loaded again, and nothing else. -/
def kept (s : Synth) (path : Nat) : Pool := if s.path = some path then s.pool else clear s.pool

theorem prepare_mid {s : Synth} (hi : Inv disk s) (path : Nat) : Mid disk (kept s path) (prepare disk s path) := by
  have h := off_mid hi
  simp only [kept, prepare]
  split_ifs with hp
  · exact h
  · exact ⟨h.size, fun _ => rfl, by simp [clear], by simp [clear], by simp [clear]⟩

/-! ### Loading the samples -/

theorem preload_size (p : Pool) (f o : Nat) (g : Bool) : (preloadFile disk p f o g).size = p.size := by
  simp only [preloadFile]
  split
  · split_ifs <;> rfl
  · cases g <;> rfl

theorem preload_ram (p : Pool) (f o : Nat) (g : Bool) : (preloadFile disk p f o g).ram = p.ram := by
  simp only [preloadFile]
  split
  · split_ifs <;> rfl
  · cases g <;> rfl

/-- The same entry, or one moved. -/
def Same (a b : Option Entry) : Prop := a = b ∨ a = b.map fun e => { e with full := false }

theorem same_trans {a b c : Option Entry} (h1 : Same a b) (h2 : Same b c) : Same a c := by
  rcases h1 with rfl | rfl
  · exact h2
  · rcases h2 with rfl | rfl
    · exact Or.inr rfl
    · right
      cases c <;> rfl

theorem preload_other (p : Pool) {f x : Nat} (o : Nat) (g : Bool) (h : x ≠ f) : Same ((preloadFile disk p f o g).files x) (p.files x) := by
  simp only [preloadFile]
  split
  · split_ifs <;> exact Or.inl (put_ne _ _ h)
  · rw [put_ne _ _ h]
    cases g
    · exact Or.inl rfl
    · exact Or.inr rfl

/-- What a file has after it was loaded. -/
def Loaded (disk : Nat → Nat) (p0 p : Pool) (x : Sample) (e : Entry) : Prop :=
  0 < e.count ∧
  ((e.maxOffset = x.offset ∧ e.loaded = framesToLoad disk p x.file x.offset ∧ (e.full = true → e.loaded = disk x.file)) ∨
   ∃ e0, p0.files x.file = some e0 ∧ framesToLoad disk p x.file x.offset ≤ e0.loaded ∧ e.maxOffset = e0.maxOffset ∧ e.loaded = e0.loaded ∧
     (e.full = true → e0.full = true))

theorem preload_self (p : Pool) (x : Sample) : ∃ e, (preloadFile disk p x.file x.offset x.grows).files x.file = some e ∧ Loaded disk p p x e := by
  simp only [preloadFile]
  split
  · rename_i e0 h0
    split_ifs with hc
    · exact ⟨_, put_self _ _ _, Nat.succ_pos _, Or.inl ⟨rfl, rfl, by simp; exact fun h => h.symm⟩⟩
    · exact ⟨_, put_self _ _ _, Nat.succ_pos _, Or.inr ⟨e0, h0, by omega, rfl, rfl, id⟩⟩
  · exact ⟨_, put_self _ _ _, Nat.one_pos, Or.inl ⟨rfl, rfl, by simp⟩⟩

theorem frames_eq {p q : Pool} (hs : p.size = q.size) (hr : p.ram = q.ram) (f o : Nat) : framesToLoad disk p f o = framesToLoad disk q f o := by
  simp only [framesToLoad, hs, hr]

/-- All of them. -/
def loadAll (disk : Nat → Nat) (p : Pool) (wanted : List Sample) : Pool := wanted.foldl (fun p x => preloadFile disk p x.file x.offset x.grows) p

theorem all_size : ∀ (wanted : List Sample) (p : Pool), (loadAll disk p wanted).size = p.size
  | [], _ => rfl
  | _ :: xs, p => (all_size xs _).trans (preload_size p _ _ _)

theorem all_ram : ∀ (wanted : List Sample) (p : Pool), (loadAll disk p wanted).ram = p.ram
  | [], _ => rfl
  | _ :: xs, p => (all_ram xs _).trans (preload_ram p _ _ _)

theorem all_other {f : Nat} : ∀ (wanted : List Sample) (p : Pool), f ∉ wanted.map Sample.file → Same ((loadAll disk p wanted).files f) (p.files f)
  | [], _, _ => Or.inl rfl
  | x :: xs, p, h => by
    simp only [List.map_cons, List.mem_cons, not_or] at h
    exact same_trans (all_other xs _ h.2) (preload_other p x.offset x.grows h.1)

theorem all_self : ∀ (wanted : List Sample) (p : Pool), (wanted.map Sample.file).Nodup → ∀ x ∈ wanted,
    ∃ e, (loadAll disk p wanted).files x.file = some e ∧ Loaded disk p p x e
  | [], _, _, _, h => by simp at h
  | y :: ys, p, hn, x, hx => by
    simp only [List.map_cons, List.nodup_cons] at hn
    rcases List.mem_cons.1 hx with rfl | hx
    · obtain ⟨e, h1, h2⟩ := preload_self (disk := disk) p x
      rcases all_other ys (preloadFile disk p x.file x.offset x.grows) hn.1 with h3 | h3
      · exact ⟨e, h3.trans h1, h2⟩
      · refine ⟨{ e with full := false }, ?_, h2.1, ?_⟩
        · rw [h1] at h3; exact h3
        · rcases h2.2 with ⟨a, b, _⟩ | ⟨e0, a, b, c, d, _⟩
          · exact Or.inl ⟨a, b, by simp⟩
          · exact Or.inr ⟨e0, a, b, c, d, by simp⟩
    · have hxy : x.file ≠ y.file := fun h => hn.1 (h ▸ List.mem_map_of_mem hx)
      obtain ⟨e, h1, h2, h3⟩ := all_self ys (preloadFile disk p y.file y.offset y.grows) hn.2 x hx
      refine ⟨e, h1, h2, ?_⟩
      rw [frames_eq (preload_size p _ _ _) (preload_ram p _ _ _)] at h3
      rcases h3 with h3 | ⟨e0, a, b, c, d, g⟩
      · exact Or.inl h3
      · rcases preload_other (disk := disk) p y.offset y.grows hxy with h4 | h4
        · exact Or.inr ⟨e0, h4 ▸ a, b, c, d, g⟩
        · rw [a] at h4
          obtain ⟨e1, g1, g2⟩ := Option.map_eq_some_iff.1 h4.symm
          subst g2
          exact Or.inr ⟨e1, g1, b, c, d, fun hf => by simpa using g hf⟩

/-- What a sample of the instrument has right after loading. -/
def Fresh (disk : Nat → Nat) (p0 p : Pool) (x : Sample) (e : Entry) : Prop :=
  (p.ram = true → e.loaded = disk x.file ∧ e.maxOffset = x.offset) ∧
  (p.ram = false → Streamed disk p.size x.file e ∧ (x.offset ≤ e.maxOffset ∨ disk x.file ≤ e.maxOffset + p.size)) ∧
  (p0.files x.file = none → e.maxOffset = x.offset) ∧ (e.full = true → e.loaded = disk x.file)

theorem loaded_fresh {p0 q r : Pool} (hm : Mid disk p0 q) (hs : q.size ≤ 2 ^ 31) (hrs : r.size = q.size) (hrr : r.ram = q.ram)
    (hf : ∀ f, (r.files f).map (fun e => (e.loaded, e.maxOffset, e.full)) = (q.files f).map fun e => (e.loaded, e.maxOffset, e.full))
    {x : Sample} (ho : x.offset < 2 ^ 31) {e : Entry} (h : Loaded disk r r x e) : Fresh disk p0 q x e := by
  obtain ⟨_, h | ⟨e0, h0, h1, h2, h3, h4⟩⟩ := h
  · obtain ⟨h1, h2, h3⟩ := h
    rw [frames_eq hrs hrr] at h2
    refine ⟨fun hr => ?_, fun hr => ?_, fun _ => h1, h3⟩
    · simp only [framesToLoad, hr, if_true] at h2
      exact ⟨h2, h1⟩
    · simp only [framesToLoad, hr, Bool.false_eq_true, if_false] at h2
      rw [Nat.mod_eq_of_lt (by omega)] at h2
      exact ⟨⟨h1 ▸ h2, h3, h1 ▸ ho⟩, Or.inl h1.ge⟩
  · rw [frames_eq hrs hrr] at h1
    have hq := hf x.file
    rw [h0] at hq
    obtain ⟨e1, g1, g2⟩ := Option.map_eq_some_iff.1 hq.symm
    simp only [Prod.mk.injEq] at g2
    obtain ⟨a1, a2, a3⟩ := g2
    cases hr : q.ram
    · simp only [framesToLoad, hr, Bool.false_eq_true, if_false] at h1
      rw [Nat.mod_eq_of_lt (by omega)] at h1
      obtain ⟨s1, s2, s3⟩ := hm.stream hr x.file e1 g1
      have hfull : e.full = true → e.loaded = disk x.file := fun hh => by rw [h3, ← a1]; exact s2 (a3.trans (h4 hh))
      refine ⟨fun h => by simp [hr] at h, fun _ => ⟨⟨by rw [h3, h2, ← a1, ← a2]; exact s1, hfull, by omega⟩, by omega⟩, fun hn => ?_, hfull⟩
      have := hm.keys x.file
      rw [hn, g1] at this
      simp at this
    · exfalso
      simp only [framesToLoad, hr, if_true] at h1
      have := hm.ram hr x.file e1 g1
      omega

theorem finalize_fresh {p0 q : Pool} (hm : Mid disk p0 q) (hs : q.size ≤ 2 ^ 31) {reloading : Bool} (hc : reloading = false → ∀ f, q.files f = none)
    {wanted : List Sample} (hn : (wanted.map Sample.file).Nodup) (ho : ∀ x ∈ wanted, x.offset < 2 ^ 31) :
    (finalize disk q reloading wanted).size = q.size ∧ (finalize disk q reloading wanted).ram = q.ram ∧
    (∀ f, ((finalize disk q reloading wanted).files f).isSome ↔ f ∈ wanted.map Sample.file) ∧
    ∀ x ∈ wanted, ∃ e, (finalize disk q reloading wanted).files x.file = some e ∧ Fresh disk p0 q x e := by
  cases reloading
  · simp only [finalize, Bool.false_eq_true, if_false]
    have key : ∀ x ∈ wanted, ∃ e, (loadAll disk q wanted).files x.file = some e ∧ Fresh disk p0 q x e := by
      intro x hx
      obtain ⟨e, h1, h2⟩ := all_self wanted q hn x hx
      exact ⟨e, h1, loaded_fresh hm hs rfl rfl (fun _ => rfl) (ho x hx) h2⟩
    refine ⟨all_size _ _, all_ram _ _, fun f => ⟨fun hf => ?_, fun hf => ?_⟩, key⟩
    · by_contra h
      have := all_other (disk := disk) wanted q h
      rw [hc rfl f] at this
      rcases this with h1 | h1 <;> (simp only [loadAll, Option.map_none] at h1; rw [h1] at hf; simp at hf)
    · obtain ⟨x, hx, rfl⟩ := List.mem_map.1 hf
      obtain ⟨e, h1, _⟩ := key x hx
      simp only [loadAll] at h1
      rw [h1]; rfl
  · simp only [finalize, if_true]
    have key : ∀ x ∈ wanted, ∃ e, (removeUnused (loadAll disk (resetCounts q) wanted)).files x.file = some e ∧ Fresh disk p0 q x e := by
      intro x hx
      obtain ⟨e, h1, h2⟩ := all_self wanted (resetCounts q) hn x hx
      refine ⟨e, ?_, loaded_fresh (r := resetCounts q) hm hs rfl rfl (fun f => ?_) (ho x hx) h2⟩
      · simp only [removeUnused, h1, Option.filter_some]
        have := h2.1
        simp; omega
      · simp only [resetCounts, Pool.change, Option.map_map]
        rfl
    refine ⟨(all_size _ _).trans rfl, (all_ram _ _).trans rfl, fun f => ⟨fun hf => ?_, fun hf => ?_⟩, key⟩
    · by_contra h
      have := all_other (disk := disk) wanted (resetCounts q) h
      obtain ⟨e, he⟩ := Option.isSome_iff_exists.1 hf
      simp only [removeUnused, Option.filter_eq_some_iff] at he
      rcases this with h1 | h1 <;> simp only [loadAll, resetCounts, Pool.change, Option.map_map] at h1 <;>
        (simp only [resetCounts, Pool.change] at he
         rw [h1] at he
         obtain ⟨he, h2⟩ := he
         obtain ⟨e0, _, rfl⟩ := Option.map_eq_some_iff.1 he
         simp at h2)
    · obtain ⟨x, hx, rfl⟩ := List.mem_map.1 hf
      obtain ⟨e, h1, _⟩ := key x hx
      simp only [loadAll] at h1
      rw [h1]; rfl

/-- After a load. -/
theorem load_fresh (hd : Disk disk) {s : Synth} (hi : Inv disk s) {path : Nat} {values : List Bool} {wanted : List Sample}
    (hs : Sane (.load path values wanted)) {s' : Synth} (he : step disk s (.load path values wanted) = s') :
    s'.pool.size = s.pool.size ∧ s'.current = wanted ∧ s'.path = some path ∧
    (∀ f, (s'.pool.files f).isSome ↔ f ∈ wanted.map Sample.file) ∧
    ∀ x ∈ wanted, ∃ e, s'.pool.files x.file = some e ∧ Fresh disk (kept s path) s'.pool x e := by
  subst he
  have hm := hints_mid hd values _ (prepare_mid hi path)
  have hsz : (hints disk (prepare disk s path) values).size = s.pool.size := by
    rw [hm.size]
    simp only [kept]
    split_ifs <;> rfl
  obtain ⟨h1, h2, h3, h4⟩ := finalize_fresh (reloading := s.path = some path) hm (hsz ▸ hi.size) (fun hr f => by
    have := hm.keys f
    simp only [kept, of_decide_eq_false hr, if_false, clear, Option.map_none, Option.map_eq_none_iff] at this
    exact this) hs.1 hs.2
  refine ⟨h1.trans hsz, rfl, rfl, h3, fun x hx => ?_⟩
  obtain ⟨e, g1, g2⟩ := h4 x hx
  refine ⟨e, g1, ?_⟩
  simp only [step]
  simp only [Fresh, h1, h2]
  exact g2

theorem inv_step (hd : Disk disk) {s : Synth} (hi : Inv disk s) {op : Op} (hs : Sane op) : Inv disk (step disk s op) := by
  cases op with
  | load path values wanted =>
    obtain ⟨h1, h2, h3, h4, h5⟩ := load_fresh hd hi hs rfl
    refine ⟨h1 ▸ hi.size, by rw [h2]; exact h4, fun hr x hx e he => ?_, fun hr f e he => ?_⟩
    · rw [h2] at hx
      obtain ⟨e', g1, g2⟩ := h5 x hx
      rw [he] at g1
      obtain rfl := Option.some.inj g1
      obtain ⟨a, b⟩ := g2.1 hr
      exact ⟨a, b, b ▸ hs.2 x hx⟩
    · have hf := (h4 f).1 (by rw [he]; rfl)
      obtain ⟨x, hx, rfl⟩ := List.mem_map.1 hf
      obtain ⟨e', g1, g2⟩ := h5 x hx
      rw [he] at g1
      obtain rfl := Option.some.inj g1
      exact (g2.2.1 hr).1
  | fail path values =>
    have hm := hints_mid hd values _ (prepare_mid hi path)
    refine ⟨?_, by simp [step, clear], by simp [step], by simp [step, clear]⟩
    simp only [step, clear, hm.size, kept]
    split_ifs <;> exact hi.size
  | size n =>
    simp only [step]
    by_cases hn : n = s.pool.size
    · rw [if_pos hn]; exact hi
    rw [if_neg hn]
    cases hr : s.pool.ram
    · simp only [setSize, hr, Bool.false_eq_true, if_false]
      refine ⟨hs, fun f => ?_, by simp [Pool.change, hr], ?_⟩
      · rw [← hi.keys f]
        simp [Pool.change]
      · intro _ f e he
        simp only [Pool.change, Option.map_eq_some_iff] at he
        obtain ⟨e0, h0, rfl⟩ := he
        exact resize_streamed (hi.stream hr f e0 h0).2.2
    · simp only [setSize, hr, if_true]
      exact ⟨hs, hi.keys, fun _ => hi.ram hr, by simp⟩

theorem inv_run (hd : Disk disk) : ∀ (ops : List Op) (s : Synth), Inv disk s → (∀ op ∈ ops, Sane op) → Inv disk (run disk s ops)
  | [], _, hi, _ => hi
  | op :: ops, s, hi, h => inv_run hd ops (step disk s op) (inv_step hd hi (h op (by simp))) (fun o ho => h o (List.mem_cons_of_mem _ ho))

theorem inv_init : Inv disk {} := ⟨by simp, by simp, by simp, by simp⟩

theorem run_append (s : Synth) (a b : List Op) : run disk s (a ++ b) = run disk (run disk s a) b := by simp [run]

/-! ## Properties -/

/-- After every history of calls, the files in memory are those of the instrument that is loaded: none is missing, and what is not used
any more is gone. -/
theorem only_used (hd : Disk disk) {ops : List Op} (h : ∀ op ∈ ops, Sane op) (f : Nat) :
    ((run disk {} ops).pool.files f).isSome ↔ f ∈ (run disk {} ops).current.map Sample.file :=
  (inv_run hd ops _ inv_init h).keys f

theorem fresh_enough {p0 p : Pool} {x : Sample} {e : Entry} (h : Fresh disk p0 p x e) : Enough (disk x.file) p.ram p.size x.offset e.loaded := by
  refine ⟨fun hr => (h.1 hr).1, fun k hk hk2 => ?_⟩
  cases hr : p.ram
  · obtain ⟨⟨h1, _, _⟩, h2⟩ := h.2.1 hr
    omega
  · rw [(h.1 hr).1]; exact hk

/-- Right after loading an instrument, whatever was done before, each of its samples is in memory up to the preload size after the
greatest offset, or in full if the instrument asks for it. -/
theorem load_enough (hd : Disk disk) {ops : List Op} (h : ∀ op ∈ ops, Sane op) {path : Nat} {values : List Bool} {wanted : List Sample}
    (hs : Sane (.load path values wanted)) {s : Synth} (hr : run disk {} (ops ++ [.load path values wanted]) = s) {x : Sample} (hx : x ∈ wanted) :
    ∃ e, s.pool.files x.file = some e ∧ Enough (disk x.file) s.pool.ram s.pool.size x.offset e.loaded := by
  rw [run_append] at hr
  obtain ⟨_, _, _, _, h5⟩ := load_fresh hd (inv_run hd ops _ inv_init h) hs hr
  obtain ⟨e, h1, h2⟩ := h5 x hx
  exact ⟨e, h1, fresh_enough h2⟩

/-- A sample that counts as complete, so that nothing is read from the disk when its notes start, is in memory in full. -/
theorem complete_is_complete (hd : Disk disk) {ops : List Op} (h : ∀ op ∈ ops, Sane op) {path : Nat} {values : List Bool} {wanted : List Sample}
    (hs : Sane (.load path values wanted)) {sizes : List Nat} (hz : ∀ n ∈ sizes, n ≤ 2 ^ 31) {x : Sample} (hx : x ∈ wanted) {e : Entry}
    (he : (run disk {} (ops ++ .load path values wanted :: sizes.map .size)).pool.files x.file = some e) (hf : e.full = true) :
    e.loaded = disk x.file := by
  have hall : ∀ op ∈ ops ++ .load path values wanted :: sizes.map .size, Sane op := by
    intro op ho
    rcases List.mem_append.1 ho with ho | ho
    · exact h op ho
    · rcases List.mem_cons.1 ho with rfl | ho
      · exact hs
      · obtain ⟨n, hn, rfl⟩ := List.mem_map.1 ho
        exact hz n hn
  have hi := inv_run hd _ _ inv_init hall
  cases hr : (run disk {} (ops ++ .load path values wanted :: sizes.map .size)).pool.ram
  · exact (hi.stream hr x.file e he).2.1 hf
  · refine (hi.ram hr x ?_ e he).1
    have cur : ∀ (ns : List Nat) (s : Synth), (run disk s (ns.map .size)).current = s.current := by
      intro ns
      induction ns with
      | nil => exact fun _ => rfl
      | cons n ns ih =>
        intro s
        simp only [List.map_cons, run, List.foldl_cons]
        refine (ih _).trans ?_
        simp only [step]
        split_ifs <;> rfl
    rw [run_append]
    simp only [run, List.foldl_cons]
    exact (cur sizes _).symm ▸ hx

/-- Changes of the preload size after loading another instrument. -/
theorem sizes_enough (hd : Disk disk) : ∀ (sizes : List Nat) (s : Synth), Inv disk s →
    (∀ x ∈ s.current, ∀ e, s.pool.files x.file = some e → x.offset ≤ e.maxOffset) → (∀ n ∈ sizes, n ≤ 2 ^ 31) → ∀ x ∈ s.current,
    ∃ e, (run disk s (sizes.map .size)).pool.files x.file = some e ∧
      Enough (disk x.file) (run disk s (sizes.map .size)).pool.ram (run disk s (sizes.map .size)).pool.size x.offset e.loaded
  | [], s, hi, ho, _, x, hx => by
    obtain ⟨e, he⟩ := Option.isSome_iff_exists.1 ((hi.keys x.file).2 (List.mem_map_of_mem hx))
    refine ⟨e, he, fun hr => (hi.ram hr x hx e he).1, fun k h1 h2 => ?_⟩
    change k < x.offset + s.pool.size at h2
    cases hr : s.pool.ram
    · have := (hi.stream hr x.file e he).1
      have := ho x hx e he
      omega
    · rw [(hi.ram hr x hx e he).1]; exact h1
  | n :: ns, s, hi, ho, hz, x, hx => by
    have hcur : (step disk s (.size n)).current = s.current := by
      simp only [step]
      split_ifs <;> rfl
    refine sizes_enough hd ns (step disk s (.size n)) (inv_step hd hi (hz n (by simp))) ?_ (fun m hm => hz m (List.mem_cons_of_mem _ hm)) x (hcur ▸ hx)
    rw [hcur]
    intro y hy e he
    simp only [step] at he
    by_cases hn : n = s.pool.size
    · rw [if_pos hn] at he
      exact ho y hy e he
    rw [if_neg hn] at he
    cases hr : s.pool.ram
    · simp only [setSize, hr, Bool.false_eq_true, if_false, Pool.change, Option.map_eq_some_iff] at he
      obtain ⟨e0, h0, rfl⟩ := he
      exact ho y hy e0 h0
    · simp only [setSize, hr, if_true] at he
      exact ho y hy e he

/-- When another instrument is loaded, whatever was done before, and then the preload size changed at will, there always is as much of
each sample in memory as the settings ask for. Missing: the same after loading the same file
again (`reload_violated`). -/
theorem enough_partial (hd : Disk disk) {ops : List Op} (h : ∀ op ∈ ops, Sane op) {path : Nat} {values : List Bool} {wanted : List Sample}
    (hs : Sane (.load path values wanted)) (hother : (run disk {} ops).path ≠ some path) {sizes : List Nat} (hz : ∀ n ∈ sizes, n ≤ 2 ^ 31)
    {s : Synth} (hr : run disk {} (ops ++ .load path values wanted :: sizes.map .size) = s) {x : Sample} (hx : x ∈ wanted) :
    ∃ e, s.pool.files x.file = some e ∧ Enough (disk x.file) s.pool.ram s.pool.size x.offset e.loaded := by
  have hi := inv_run hd ops _ inv_init h
  obtain ⟨_, h2, _, _, h5⟩ := load_fresh hd hi hs rfl
  rw [run_append] at hr
  subst hr
  simp only [run, List.foldl_cons]
  refine sizes_enough hd sizes _ (inv_step hd hi hs) ?_ hz x (h2 ▸ hx)
  rw [h2]
  intro y hy e he
  obtain ⟨e', g1, g2⟩ := h5 y hy
  rw [he] at g1
  obtain rfl := Option.some.inj g1
  exact (g2.2.2.1 (by simp [kept, hother, clear])).ge

/-- The preload size is never lowered. -/
def Raising (disk : Nat → Nat) : Synth → List Op → Prop
  | _, [] => True
  | s, op :: ops => (∀ n, op = .size n → s.pool.size ≤ n) ∧ Raising disk (step disk s op) ops

/-- The offset is taken into account, or the sample is in memory in full. -/
def Kept (disk : Nat → Nat) (s : Synth) : Prop :=
  s.pool.ram = false → ∀ x ∈ s.current, ∀ e, s.pool.files x.file = some e → x.offset ≤ e.maxOffset ∨ disk x.file ≤ e.maxOffset + s.pool.size

theorem kept_step (hd : Disk disk) {s : Synth} (hi : Inv disk s) (hk : Kept disk s) {op : Op} (hs : Sane op) (hn : ∀ n, op = .size n → s.pool.size ≤ n) :
    Kept disk (step disk s op) := by
  cases op with
  | load path values wanted =>
    obtain ⟨_, h2, _, _, h5⟩ := load_fresh hd hi hs rfl
    intro hr x hx e he
    rw [h2] at hx
    obtain ⟨e', g1, g2⟩ := h5 x hx
    rw [he] at g1
    obtain rfl := Option.some.inj g1
    exact (g2.2.1 hr).2
  | fail path values => intro _ x hx; simp [step] at hx
  | size n =>
    have hle := hn n rfl
    simp only [step]
    by_cases hc : n = s.pool.size
    · rw [if_pos hc]; exact hk
    rw [if_neg hc]
    cases hr : s.pool.ram
    · simp only [setSize, hr, Bool.false_eq_true, if_false]
      intro _ x hx e he
      simp only [Pool.change, Option.map_eq_some_iff] at he
      obtain ⟨e0, h0, rfl⟩ := he
      simp only [resize]
      have := hk hr x hx e0 h0
      omega
    · simp only [setSize, hr, if_true]
      intro h
      simp at h

theorem kept_run (hd : Disk disk) : ∀ (ops : List Op) (s : Synth), Inv disk s → Kept disk s → (∀ op ∈ ops, Sane op) → Raising disk s ops →
    Kept disk (run disk s ops)
  | [], _, _, hk, _, _ => hk
  | op :: ops, s, hi, hk, h, hr => kept_run hd ops (step disk s op) (inv_step hd hi (h op (by simp))) (kept_step hd hi hk (h op (by simp)) hr.1)
      (fun o ho => h o (List.mem_cons_of_mem _ ho)) hr.2

/-- As long as the preload size is not lowered, there is after every history of calls as much of each sample in memory as the settings
ask for, also when instruments were edited and loaded again. -/
theorem raised_enough_partial (hd : Disk disk) {ops : List Op} (h : ∀ op ∈ ops, Sane op) (hr : Raising disk {} ops) {s : Synth}
    (hs : run disk {} ops = s) {x : Sample} (hx : x ∈ s.current) :
    ∃ e, s.pool.files x.file = some e ∧ Enough (disk x.file) s.pool.ram s.pool.size x.offset e.loaded := by
  subst hs
  have hi := inv_run hd ops _ inv_init h
  have hk := kept_run hd ops _ inv_init (by simp [Kept]) h hr
  obtain ⟨e, he⟩ := Option.isSome_iff_exists.1 ((hi.keys x.file).2 (List.mem_map_of_mem hx))
  refine ⟨e, he, fun hram => (hi.ram hram x hx e he).1, fun k h1 h2 => ?_⟩
  cases hram : (run disk {} ops).pool.ram
  · have := (hi.stream hram x.file e he).1
    have := hk hram x hx e he
    omega
  · rw [(hi.ram hram x hx e he).1]; exact h1

/-- The size set last. -/
def lastSize : List Op → Nat → Nat
  | [], n => n
  | .size m :: ops, _ => lastSize ops m
  | _ :: ops, n => lastSize ops n

theorem setRam_ram (p : Pool) (b : Bool) : (setRam disk p b).ram = b := by
  simp only [setRam]
  split_ifs with h1 h2
  · exact h1.symm
  · exact h2.symm
  · cases b
    · rfl
    · simp at h2

theorem setRam_size (p : Pool) (b : Bool) : (setRam disk p b).size = p.size := by
  simp only [setRam, setSize]
  split_ifs <;> rfl

theorem hints_size : ∀ (values : List Bool) (p : Pool), (hints disk p values).size = p.size
  | [], _ => rfl
  | b :: bs, p => (hints_size bs _).trans (setRam_size p b)

theorem hints_ram : ∀ (values : List Bool) (p : Pool), (hints disk p values).ram = values.getLastD p.ram
  | [], _ => rfl
  | b :: bs, p => by
    refine (hints_ram bs (setRam disk p b)).trans ?_
    rw [setRam_ram, List.getLastD_cons]

theorem prepare_size (s : Synth) (path : Nat) : (prepare disk s path).size = s.pool.size := by
  simp only [prepare]
  split_ifs <;> exact setRam_size _ _

theorem finalize_both (p : Pool) (b : Bool) (wanted : List Sample) : (finalize disk p b wanted).size = p.size ∧ (finalize disk p b wanted).ram = p.ram := by
  cases b
  · exact ⟨all_size _ _, all_ram _ _⟩
  · exact ⟨(all_size _ _).trans rfl, (all_ram _ _).trans rfl⟩

theorem step_size (s : Synth) (op : Op) : (step disk s op).pool.size = lastSize [op] s.pool.size := by
  cases op with
  | load path values wanted => exact (finalize_both _ _ _).1.trans ((hints_size _ _).trans (prepare_size s path))
  | fail path values => exact (hints_size _ _).trans (prepare_size s path)
  | size n =>
    simp only [step, lastSize]
    split_ifs with h
    · exact h.symm
    · simp only [setSize]
      split_ifs <;> rfl

theorem size_run : ∀ (ops : List Op) (s : Synth), (run disk s ops).pool.size = lastSize ops s.pool.size
  | [], _ => rfl
  | op :: ops, s => by
    refine (size_run ops (step disk s op)).trans ?_
    rw [step_size]
    cases op <;> rfl

/-- The preload size is the one set last, whatever is loaded. -/
theorem size_as_set (ops : List Op) : (run disk {} ops).pool.size = lastSize ops 8192 := size_run ops {}

/-- The samples are in memory in full if the instrument loaded last asks for it, with its last word on it, and not otherwise. -/
theorem ram_as_asked (ops : List Op) (path : Nat) (values : List Bool) (wanted : List Sample) :
    (run disk {} (ops ++ [.load path values wanted])).pool.ram = values.getLastD false := by
  rw [run_append]
  refine (finalize_both _ _ _).2.trans ((hints_ram _ _).trans ?_)
  congr 1
  simp only [prepare]
  split_ifs <;> exact setRam_ram _ _

/-! ## Where the code does less -/

/-- A sample of 1000 frames; the file is edited to start it at frame 900 and loaded again, then the preload size is lowered to 100: only
100 frames stay in memory, and the notes start in frames that are not there. -/
theorem reload_violated : ∃ (ops : List Op) (e : Entry), (∀ op ∈ ops, Sane op) ∧
    (run (fun _ => 1000) {} ops).current = [{ file := 0, offset := 900 }] ∧ (run (fun _ => 1000) {} ops).pool.files 0 = some e ∧
    (run (fun _ => 1000) {} ops).pool.size = 100 ∧ e.loaded = 100 ∧ ¬ Enough 1000 false 100 900 e.loaded := by
  refine ⟨[.load 1 [] [{ file := 0, offset := 0 }], .load 1 [] [{ file := 0, offset := 900 }], .size 100],
    { loaded := 100, maxOffset := 0, full := false, count := 1 }, ?_, rfl, by decide +kernel, by decide +kernel, rfl, ?_⟩
  · intro op ho
    simp only [List.mem_cons, List.not_mem_nil, or_false] at ho
    rcases ho with rfl | rfl | rfl <;> simp [Sane]
  · rintro ⟨_, h⟩
    exact absurd (h 950 (by decide) (by decide)) (by decide)

/-- With the greatest preload size the sum with the offset wraps around: nothing is in memory. -/
theorem greatest_size_violated : ∃ e : Entry,
    (run (fun _ => 1000) {} [.size (2 ^ 32 - 1), .load 1 [] [{ file := 0, offset := 1 }]]).pool.files 0 = some e ∧ e.loaded = 0 :=
  ⟨{ loaded := 0, maxOffset := 1, full := false, count := 1 }, by decide +kernel, rfl⟩

/-- An instrument that asks for its samples to be in memory in full: the first sample is, but does not count as such when the table of
files has grown with the second, so that its notes read it from the disk once more. -/
theorem forgotten_complete_violated : ∃ e : Entry,
    (run (fun _ => 1000) {} [.load 1 [true] [{ file := 0, offset := 0 }, { file := 1, offset := 0, grows := true }]]).pool.files 0 = some e ∧
      e.loaded = 1000 ∧ e.full = false :=
  ⟨{ loaded := 1000, maxOffset := 0, full := false, count := 1 }, by decide +kernel, rfl, rfl⟩

/-- A file without frames, in an instrument that asks for RAM and is loaded again: the space asked for is that of 2^32 - 1 frames. -/
theorem empty_sample_violated : ∃ e : Entry,
    (run (fun _ => 0) {} [.load 1 [true] [{ file := 0, offset := 0 }], .load 1 [true] [{ file := 0, offset := 0 }]]).pool.files 0 = some e ∧
      e.loaded = 2 ^ 32 - 1 :=
  ⟨{ loaded := 2 ^ 32 - 1, maxOffset := 0, full := true, count := 1 }, by decide +kernel, rfl⟩

/-- Two samples, loaded again with one of them replaced and a greater offset of the other; in RAM and back. -/
example : let s := run (fun _ => 50000) {} [.load 1 [] [{ file := 0, offset := 0 }, { file := 1, offset := 5 }],
    .load 1 [true] [{ file := 0, offset := 100 }, { file := 2, offset := 0 }], .size 300, .load 1 [] [{ file := 0, offset := 70 }]]
  s.pool.files 0 = some { loaded := 400, maxOffset := 100, full := false, count := 1 } ∧ s.pool.files 1 = none ∧ s.pool.files 2 = none := by decide +kernel

/-- The hypotheses hold. -/
example : Disk (fun _ => 50000) ∧ Sane (.load 1 [true] [{ file := 0, offset := 100 }, { file := 2, offset := 0 }]) := by
  refine ⟨fun _ => ⟨by simp, by simp⟩, by decide, ?_⟩
  intro x hx
  simp only [List.mem_cons, List.not_mem_nil, or_false] at hx
  rcases hx with rfl | rfl <;> decide

end Verif.Preload
