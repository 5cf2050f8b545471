import Mathlib.Tactic.Linarith

/-!
# Temporary audio buffers

Models `src/sfizz/BufferPool.h`: `SpanHolder` (24-59), `BufferPool::getBuffer` (82-101; the index
and stereo variants 103-143 are the same code over other arrays) and `_setBufferSize` (155-172).
A program owns numbered holder variables; constructing a holder from a call is assigning it to an
empty variable.  The contents of the buffers are not modelled.
-/

namespace Verif.BufferPool

structure State where
  /-- `monoBuffers[k].size()` -/
  sizes : List Nat
  /-- `monoAvailable[k]` -/
  available : List Int
  /-- each holder variable: empty (`available == nullptr`), or the buffer it points into and the
  size of its span -/
  holders : List (Option (Nat × Nat))
deriving DecidableEq, Repr

/-- The index of the first available buffer: `absl::c_find(monoAvailable, 1)`. -/
def firstFree : List Int → Option Nat
  | [] => none
  | a :: as => if a = 1 then some 0 else (firstFree as).map (· + 1)

/-- `*available += d`. -/
def bump (l : List Int) (k : Nat) (d : Int) : List Int :=
  match l[k]? with
  | some v => l.set k (v + d)
  | none => l

/-- BufferPool.h:82-101 — `getBuffer`: what the returned holder is, and the pool afterwards. -/
def getBuffer (s : State) (numFrames : Nat) : Option (Nat × Nat) × List Int :=
  match firstFree s.available with
  | none => (none, s.available)
  | some k =>
    if s.sizes.getD k 0 < numFrames then (none, s.available)
    else (some (k, numFrames), bump s.available k (-1))

inductive Op where
  /-- `holder[h] = pool.getBuffer(n)` -/
  | get (h n : Nat)
  /-- `holder[dst] = std::move(holder[src])` (35-41), for two variables -/
  | move (dst src : Nat)
  /-- the holder goes out of scope (50-54) -/
  | drop (h : Nat)
  /-- `setBufferSize(n)` (74-80, 155-172) -/
  | resize (n : Nat)
deriving DecidableEq, Repr

def step (s : State) : Op → State
  | .get h n =>
    if h < s.holders.length then
      let (v, avail) := getBuffer s n
      { s with available := avail, holders := s.holders.set h v }
    else s
  | .move dst src =>
    if dst ≠ src then
      match s.holders[src]? with
      | some v => { s with holders := (s.holders.set dst v).set src none }
      | none => s
    else s
  | .drop h =>
    match s.holders[h]? with
    | some (some (k, _)) => { s with available := bump s.available k 1, holders := s.holders.set h none }
    | _ => s
  | .resize n =>
    { s with sizes := s.sizes.map fun _ => n, available := s.available.map fun _ => 1 }

def run (s : State) (ops : List Op) : State := ops.foldl step s

/-- A pool of `buffers` buffers of `size` frames, and `vars` holder variables. -/
def init (buffers size vars : Nat) : State :=
  { sizes := List.replicate buffers size, available := List.replicate buffers 1,
    holders := List.replicate vars none }

/-! ## Specification -/

/-- No holder refers to a buffer. -/
def AllEmpty (s : State) : Prop := ∀ v ∈ s.holders, v = none

/-- The documented use of `setBufferSize`: not while buffers are lent (its assertions, 76-78). -/
def Sane (s : State) : List Op → Prop
  | [] => True
  | op :: ops => (∀ n, op = .resize n → AllEmpty s) ∧ Sane (step s op) ops

/-- Moreover no assignment replaces a non-empty holder. -/
def Tidy (s : State) : List Op → Prop
  | [] => True
  | op :: ops =>
    (∀ n, op = .resize n → AllEmpty s) ∧
    (∀ h n, op = .get h n → s.holders[h]? = some none) ∧
    (∀ d c, op = .move d c → s.holders[d]? = some none) ∧ Tidy (step s op) ops

/-! ## Counting -/

def refers (k : Nat) (v : Option (Nat × Nat)) : Bool := v.map (·.1) == some k

def users (s : State) (k : Nat) : Nat := s.holders.countP (refers k)

theorem refers_none (k : Nat) : refers k none = false := rfl

theorem countP_set_of {α : Type} (p : α → Bool) (l : List α) (i : Nat) (a b : α)
    (h : l[i]? = some a) :
    (l.set i b).countP p + (p a).toNat = l.countP p + (p b).toNat := by
  induction l generalizing i with
  | nil => simp at h
  | cons x l ih =>
    cases i with
    | zero =>
      simp at h
      subst h
      simp only [List.set_cons_zero, List.countP_cons]
      cases p x <;> cases p b <;> simp
    | succ i =>
      have := ih i (by simpa using h)
      simp only [List.set_cons_succ, List.countP_cons]
      omega

theorem firstFree_some {l : List Int} {k : Nat} (h : firstFree l = some k) :
    l[k]? = some 1 ∧ ∀ j < k, l[j]? ≠ some 1 := by
  induction l generalizing k with
  | nil => cases h
  | cons a l ih =>
    simp only [firstFree] at h
    split at h
    · rename_i ha
      cases h
      exact ⟨by simp [ha], by intro j hj; omega⟩
    · rename_i ha
      cases hf : firstFree l with
      | none => rw [hf] at h; cases h
      | some m =>
        rw [hf] at h
        cases h
        obtain ⟨h1, h2⟩ := ih hf
        refine ⟨by simpa using h1, ?_⟩
        intro j hj
        cases j with
        | zero => simpa using ha
        | succ j =>
          dsimp only at hj
          simpa using h2 j (by omega)

theorem firstFree_none {l : List Int} (h : firstFree l = none) : ∀ k : Nat, l[k]? ≠ some 1 := by
  induction l with
  | nil => simp
  | cons a l ih =>
    simp only [firstFree] at h
    split at h
    · cases h
    · rename_i ha
      intro k
      cases k with
      | zero => simpa using ha
      | succ k =>
        cases hf : firstFree l with
        | none => simpa using ih hf k
        | some m => rw [hf] at h; cases h

theorem bump_get (l : List Int) (k : Nat) (d : Int) (j : Nat) :
    (bump l k d)[j]? = if j = k then l[j]?.map (· + d) else l[j]? := by
  unfold bump
  cases h : l[k]? with
  | none =>
    dsimp only
    by_cases hj : j = k
    · subst hj
      simp [h]
    · rw [if_neg hj]
  | some v =>
    by_cases hj : j = k
    · subst hj
      have hlt : j < l.length := by
        by_contra hge
        rw [List.getElem?_eq_none (by omega)] at h
        cases h
      rw [if_pos rfl, h]
      simp [hlt]
    · rw [if_neg hj, List.getElem?_set_ne (by omega)]

theorem bump_length (l : List Int) (k : Nat) (d : Int) : (bump l k d).length = l.length := by
  unfold bump
  split <;> simp

/-! ## The invariant -/

/-- Buffer `k` is available at most once, and not while someone refers to it. -/
structure Inv (s : State) : Prop where
  bounds : ∀ (k : Nat) (v : Int), s.available[k]? = some v → 0 ≤ v ∧ v + (users s k : Int) ≤ 1
  inside : ∀ (h k n : Nat), s.holders[h]? = some (some (k, n)) → k < s.available.length
  sizes : s.sizes.length = s.available.length
  fits : ∀ (h k n : Nat), s.holders[h]? = some (some (k, n)) → ∃ m, s.sizes[k]? = some m ∧ n ≤ m

/-- … exactly once if nobody refers to it. -/
def Exact (s : State) : Prop :=
  ∀ (k : Nat) (v : Int), s.available[k]? = some v → v + (users s k : Int) = 1

theorem users_zero_of_allEmpty {s : State} (h : AllEmpty s) (k : Nat) : users s k = 0 := by
  unfold users
  rw [List.countP_eq_zero]
  intro v hv
  rw [h v hv]
  simp [refers]

theorem getBuffer_cases (s : State) (n : Nat) :
    (getBuffer s n = (none, s.available)) ∨
    ∃ k m, s.available[k]? = some 1 ∧ s.sizes[k]? = some m ∧ n ≤ m ∧
      getBuffer s n = (some (k, n), bump s.available k (-1)) ∨
    (∃ k, s.available[k]? = some 1 ∧ s.sizes[k]? = none ∧ n = 0 ∧
      getBuffer s n = (some (k, n), bump s.available k (-1))) := by
  unfold getBuffer
  cases hf : firstFree s.available with
  | none => exact Or.inl rfl
  | some k =>
    dsimp only
    have h1 := (firstFree_some hf).1
    split
    · exact Or.inl rfl
    · rename_i hs
      cases hk : s.sizes[k]? with
      | none =>
        right
        refine ⟨k, 0, Or.inr ⟨k, h1, hk, ?_, rfl⟩⟩
        rw [List.getD_eq_getElem?_getD, hk] at hs
        simpa using hs
      | some m =>
        right
        refine ⟨k, m, Or.inl ⟨h1, hk, ?_, rfl⟩⟩
        rw [List.getD_eq_getElem?_getD, hk] at hs
        simpa using hs

theorem users_set {s : State} {h : Nat} {old new : Option (Nat × Nat)} (k : Nat)
    (hh : s.holders[h]? = some old) (avail : List Int) (sz : List Nat) :
    users { sizes := sz, available := avail, holders := s.holders.set h new } k +
      (refers k old).toNat = users s k + (refers k new).toNat :=
  countP_set_of (refers k) s.holders h old new hh

theorem inv_resize {s : State} (hi : Inv s) (he : AllEmpty s) (n : Nat) :
    Inv (step s (.resize n)) ∧ Exact (step s (.resize n)) := by
  have key : ∀ (k : Nat) (v : Int), (s.available.map fun _ => (1 : Int))[k]? = some v → v = 1 := by
    intro k v hv
    rw [List.getElem?_map] at hv
    cases ha : s.available[k]? with
    | none => rw [ha] at hv; cases hv
    | some x => rw [ha] at hv; cases hv; rfl
  have hu : ∀ k, users (step s (.resize n)) k = 0 := fun k => users_zero_of_allEmpty (s := step s (.resize n)) he k
  refine ⟨⟨?_, ?_, ?_, ?_⟩, ?_⟩
  · intro k v hv
    rw [hu k, key k v hv]
    simp
  · intro h k m hh
    have := he _ (List.mem_of_getElem? hh)
    cases this
  · simp [step, hi.sizes]
  · intro h k m hh
    have := he _ (List.mem_of_getElem? hh)
    cases this
  · intro k v hv
    rw [hu k, key k v hv]
    simp

theorem inv_step {s : State} (hi : Inv s) (op : Op) (hop : ∀ n, op = .resize n → AllEmpty s) :
    Inv (step s op) ∧
    (Exact s → (∀ h n, op = .get h n → s.holders[h]? = some none) →
      (∀ d c, op = .move d c → s.holders[d]? = some none) → Exact (step s op)) := by
  cases op with
  | resize n => exact ⟨(inv_resize hi (hop n rfl) n).1, fun _ _ _ => (inv_resize hi (hop n rfl) n).2⟩
  | get h n =>
    simp only [step]
    by_cases hlt : h < s.holders.length
    · rw [if_pos hlt]
      obtain ⟨old, hold⟩ : ∃ old, s.holders[h]? = some old := ⟨_, List.getElem?_eq_getElem hlt⟩
      have noBuffer : ∀ {v : Option (Nat × Nat)}, v = none →
          (Inv { sizes := s.sizes, available := s.available, holders := s.holders.set h v } ∧
          (Exact s → (∀ h' n', Op.get h n = .get h' n' → s.holders[h']? = some none) →
            (∀ d c, Op.get h n = .move d c → s.holders[d]? = some none) →
            Exact { sizes := s.sizes, available := s.available, holders := s.holders.set h v })) := by
        rintro v rfl
        refine ⟨⟨?_, ?_, hi.sizes, ?_⟩, ?_⟩
        · intro k x hx
          have hb := hi.bounds k x hx
          have hu := users_set (new := none) k hold s.available s.sizes
          rw [refers_none] at hu
          simp at hu
          omega
        · intro h' k m hh
          by_cases he : h' = h
          · subst he
            rw [List.getElem?_set_self hlt] at hh
            cases hh
          · rw [List.getElem?_set_ne (by omega)] at hh
            exact hi.inside h' k m hh
        · intro h' k m hh
          by_cases he : h' = h
          · subst he
            rw [List.getElem?_set_self hlt] at hh
            cases hh
          · rw [List.getElem?_set_ne (by omega)] at hh
            exact hi.fits h' k m hh
        · intro hex hg _ k x hx
          have hnone := hg h n rfl
          rw [hold] at hnone
          cases hnone
          have hu := users_set (new := none) k hold s.available s.sizes
          have := hex k x hx
          omega
      rcases getBuffer_cases s n with hg | ⟨k, m, ⟨h1, hm, hn, hg⟩ | ⟨k, h1, hm, hn, hg⟩⟩
      · rw [hg]
        exact noBuffer rfl
      · rw [hg]
        have hklt : k < s.available.length := by
          by_contra hge
          rw [List.getElem?_eq_none (by omega)] at h1
          cases h1
        dsimp only
        refine ⟨⟨?_, ?_, ?_, ?_⟩, ?_⟩
        · intro j x hx
          dsimp only at hx
          rw [bump_get] at hx
          have hu := users_set (new := some (k, n)) j hold (bump s.available k (-1)) s.sizes
          by_cases hj : j = k
          · subst hj
            rw [if_pos rfl, h1] at hx
            cases hx
            have hb := (hi.bounds j 1 h1).2
            have : (refers j (some (j, n))).toNat = 1 := by simp [refers]
            rw [this] at hu
            constructor
            · norm_num
            · dsimp only
              omega
          · rw [if_neg hj] at hx
            have hb := hi.bounds j x hx
            have : (refers j (some (k, n))).toNat = 0 := by
              simp [refers]
              omega
            rw [this] at hu
            omega
        · intro h' j m' hh
          dsimp only at hh ⊢
          rw [bump_length]
          by_cases he : h' = h
          · subst he
            rw [List.getElem?_set_self hlt] at hh
            cases hh
            exact hklt
          · rw [List.getElem?_set_ne (by omega)] at hh
            exact hi.inside h' j m' hh
        · dsimp only
          rw [bump_length]
          exact hi.sizes
        · intro h' j m' hh
          dsimp only at hh
          by_cases he : h' = h
          · subst he
            rw [List.getElem?_set_self hlt] at hh
            cases hh
            exact ⟨m, hm, hn⟩
          · rw [List.getElem?_set_ne (by omega)] at hh
            exact hi.fits h' j m' hh
        · intro hex hgt _ j x hx
          dsimp only at hx
          rw [bump_get] at hx
          have hnone := hgt h n rfl
          rw [hold] at hnone
          cases hnone
          have hu := users_set (new := some (k, n)) j hold (bump s.available k (-1)) s.sizes
          by_cases hj : j = k
          · subst hj
            rw [if_pos rfl, h1] at hx
            cases hx
            have hb := hex j 1 h1
            have : (refers j (some (j, n))).toNat = 1 := by simp [refers]
            rw [this, refers_none] at hu
            simp at hu
            dsimp only
            omega
          · rw [if_neg hj] at hx
            have hb := hex j x hx
            have : (refers j (some (k, n))).toNat = 0 := by
              simp [refers]
              omega
            rw [this, refers_none] at hu
            simp at hu
            omega
      · exfalso
        have hklt : k < s.sizes.length := by
          rw [hi.sizes]
          by_contra hge
          rw [List.getElem?_eq_none (by omega)] at h1
          cases h1
        rw [List.getElem?_eq_getElem hklt] at hm
        cases hm
    · rw [if_neg hlt]
      exact ⟨hi, fun h _ _ => h⟩
  | move dst src =>
    simp only [step]
    by_cases hne : dst ≠ src
    · rw [if_pos hne]
      cases hs : s.holders[src]? with
      | none => exact ⟨hi, fun h _ _ => h⟩
      | some v =>
        dsimp only
        have hslt : src < s.holders.length := by
          by_contra hge
          rw [List.getElem?_eq_none (by omega)] at hs
          cases hs
        -- the holders afterwards, one by one
        have hget : ∀ h' w, ((s.holders.set dst v).set src none)[h']? = some w →
            w = none ∨ (h' = dst ∧ w = v) ∨ s.holders[h']? = some w := by
          intro h' w hw
          by_cases he : h' = src
          · subst he
            rw [List.getElem?_set_self (by simpa using hslt)] at hw
            cases hw
            exact Or.inl rfl
          · rw [List.getElem?_set_ne (by omega)] at hw
            by_cases hd : h' = dst
            · subst hd
              rw [List.getElem?_set] at hw
              simp only [if_true] at hw
              split at hw
              · cases hw
                exact Or.inr (Or.inl ⟨rfl, rfl⟩)
              · cases hw
            · rw [List.getElem?_set_ne (by omega)] at hw
              exact Or.inr (Or.inr hw)
        have husers : ∀ k, users ⟨s.sizes, s.available, (s.holders.set dst v).set src none⟩ k ≤ users s k ∧
            (s.holders[dst]? = some none →
              users ⟨s.sizes, s.available, (s.holders.set dst v).set src none⟩ k = users s k) := by
          intro k
          unfold users
          dsimp only
          have hs' : (s.holders.set dst v)[src]? = some v := by
            rw [List.getElem?_set_ne hne]
            exact hs
          have h2 := countP_set_of (refers k) (s.holders.set dst v) src v none hs'
          rw [refers_none] at h2
          cases hd : s.holders[dst]? with
          | none =>
            have hge : s.holders.length ≤ dst := by
              by_contra hlt
              rw [List.getElem?_eq_getElem (by omega)] at hd
              cases hd
            rw [List.set_eq_of_length_le hge] at h2 ⊢
            constructor
            · simp at h2
              omega
            · intro h
              cases h
          | some old =>
            have h1 := countP_set_of (refers k) s.holders dst old v hd
            constructor
            · simp at h2
              omega
            · intro h
              cases h
              rw [refers_none] at h1
              simp at h1 h2
              omega
        refine ⟨⟨?_, ?_, hi.sizes, ?_⟩, ?_⟩
        · intro k x hx
          have hb := hi.bounds k x hx
          have := (husers k).1
          omega
        · intro h' k m hh
          rcases hget h' _ hh with hw | ⟨_, hw⟩ | hw
          · cases hw
          · rw [← hw] at hs
            exact hi.inside src k m hs
          · exact hi.inside h' k m hw
        · intro h' k m hh
          rcases hget h' _ hh with hw | ⟨_, hw⟩ | hw
          · cases hw
          · rw [← hw] at hs
            exact hi.fits src k m hs
          · exact hi.fits h' k m hw
        · intro hex _ hmv k x hx
          have := (husers k).2 (hmv dst src rfl)
          have := hex k x hx
          omega
    · rw [if_neg hne]
      exact ⟨hi, fun h _ _ => h⟩
  | drop h =>
    simp only [step]
    cases hh : s.holders[h]? with
    | none => exact ⟨hi, fun h _ _ => h⟩
    | some v =>
      cases v with
      | none => exact ⟨hi, fun h _ _ => h⟩
      | some p =>
        obtain ⟨k, n⟩ := p
        dsimp only
        have hlt : h < s.holders.length := by
          by_contra hge
          rw [List.getElem?_eq_none (by omega)] at hh
          cases hh
        have hset : ∀ h' j m : Nat, (s.holders.set h none)[h']? = some (some (j, m)) →
            s.holders[h']? = some (some (j, m)) := by
          intro h' j m hx
          by_cases he : h' = h
          · subst he
            rw [List.getElem?_set_self hlt] at hx
            cases hx
          · rw [List.getElem?_set_ne (by omega)] at hx
            exact hx
        have hval : ∀ (j : Nat) (x : Int), (bump s.available k 1)[j]? = some x →
            ∃ y, s.available[j]? = some y ∧
              x + (users ⟨s.sizes, bump s.available k 1, s.holders.set h none⟩ j : Int) = y + (users s j : Int) ∧ y ≤ x := by
          intro j x hx
          rw [bump_get] at hx
          have hu := users_set (new := none) j hh (bump s.available k 1) s.sizes
          rw [refers_none] at hu
          by_cases hj : j = k
          · subst hj
            rw [if_pos rfl] at hx
            cases ha : s.available[j]? with
            | none => rw [ha] at hx; cases hx
            | some y =>
              rw [ha] at hx
              cases hx
              refine ⟨y, rfl, ?_, by dsimp only; omega⟩
              have : (refers j (some (j, n))).toNat = 1 := by simp [refers]
              rw [this] at hu
              simp at hu
              dsimp only
              omega
          · rw [if_neg hj] at hx
            refine ⟨x, hx, ?_, le_refl _⟩
            have : (refers j (some (k, n))).toNat = 0 := by
              simp [refers]
              omega
            rw [this] at hu
            simp at hu
            omega
        refine ⟨⟨?_, ?_, ?_, ?_⟩, ?_⟩
        · intro j x hx
          obtain ⟨y, hy, he, hle⟩ := hval j x hx
          have hb := hi.bounds j y hy
          omega
        · intro h' j m hx
          dsimp only
          rw [bump_length]
          exact hi.inside h' j m (hset h' j m hx)
        · dsimp only
          rw [bump_length]
          exact hi.sizes
        · intro h' j m hx
          exact hi.fits h' j m (hset h' j m hx)
        · intro hex _ _ j x hx
          obtain ⟨y, hy, he, _⟩ := hval j x hx
          have hb := hex j y hy
          omega

theorem inv_init (buffers size vars : Nat) :
    Inv (init buffers size vars) ∧ Exact (init buffers size vars) := by
  have he : AllEmpty (init buffers size vars) := fun v hv => List.eq_of_mem_replicate hv
  have hone : ∀ (k : Nat) (v : Int), (init buffers size vars).available[k]? = some v → v = 1 := by
    intro k v hv
    exact List.eq_of_mem_replicate (List.mem_of_getElem? hv)
  refine ⟨⟨?_, ?_, by simp [init], ?_⟩, ?_⟩
  · intro k v hv
    rw [users_zero_of_allEmpty he, hone k v hv]
    simp
  · intro h k n hh
    cases he _ (List.mem_of_getElem? hh)
  · intro h k n hh
    cases he _ (List.mem_of_getElem? hh)
  · intro k v hv
    rw [users_zero_of_allEmpty he, hone k v hv]
    simp

theorem inv_run {s : State} (hi : Inv s) (ops : List Op) (hs : Sane s ops) : Inv (run s ops) := by
  induction ops generalizing s with
  | nil => exact hi
  | cons op ops ih => exact ih (inv_step hi op hs.1).1 hs.2

theorem exact_run {s : State} (hi : Inv s) (he : Exact s) (ops : List Op) (ht : Tidy s ops) :
    Inv (run s ops) ∧ Exact (run s ops) := by
  induction ops generalizing s with
  | nil => exact ⟨hi, he⟩
  | cons op ops ih =>
    obtain ⟨h1, h2, h3, h4⟩ := ht
    have hst := inv_step hi op h1
    exact ih hst.1 (hst.2 he h2 h3) h4

/-! ## C23 -/

/-- **C23.** After any sequence of requests, moves, assignments (even over a non-empty holder) and
destructions, two holders never refer to the same buffer. -/
theorem lent_once (buffers size vars : Nat) (ops : List Op)
    (hs : Sane (init buffers size vars) ops) {h h' k n n' : Nat}
    (h1 : (run (init buffers size vars) ops).holders[h]? = some (some (k, n)))
    (h2 : (run (init buffers size vars) ops).holders[h']? = some (some (k, n'))) : h = h' := by
  have hi := inv_run (inv_init buffers size vars).1 ops hs
  generalize run (init buffers size vars) ops = s at *
  by_contra hne
  have hk := hi.inside h k n h1
  obtain ⟨v, hv⟩ : ∃ v, s.available[k]? = some v := ⟨_, List.getElem?_eq_getElem hk⟩
  have hb := hi.bounds k v hv
  have c1 := countP_set_of (refers k) s.holders h _ none h1
  have hother : (s.holders.set h none)[h']? = some (some (k, n')) := by
    rw [List.getElem?_set_ne hne]
    exact h2
  have c2 := countP_set_of (refers k) (s.holders.set h none) h' _ none hother
  have e1 : (refers k (some (k, n))).toNat = 1 := by simp [refers]
  have e2 : (refers k (some (k, n'))).toNat = 1 := by simp [refers]
  rw [e1, refers_none] at c1
  rw [e2, refers_none] at c2
  unfold users at hb
  simp at c1 c2
  omega

/-- **C23.** Every lent span has the size that was asked for and lies inside its buffer. -/
theorem lent_fits (buffers size vars : Nat) (ops : List Op)
    (hs : Sane (init buffers size vars) ops) {h k n : Nat}
    (h1 : (run (init buffers size vars) ops).holders[h]? = some (some (k, n))) :
    ∃ m, (run (init buffers size vars) ops).sizes[k]? = some m ∧ n ≤ m :=
  (inv_run (inv_init buffers size vars).1 ops hs).fits h k n h1

/-- **C23.** A request succeeds, with a span of the size asked for in a buffer nobody holds, or it
fails because no buffer is available or the free one is too small. -/
theorem request_outcome (buffers size vars : Nat) (ops : List Op)
    (hs : Sane (init buffers size vars) ops) (n : Nat) :
    let s := run (init buffers size vars) ops
    match (getBuffer s n).1 with
    | some (k, m) => m = n ∧ ∀ h m' : Nat, s.holders[h]? ≠ some (some (k, m'))
    | none => (∀ k : Nat, s.available[k]? ≠ some 1) ∨ ∃ k, s.sizes.getD k 0 < n := by
  have hi := inv_run (inv_init buffers size vars).1 ops hs
  generalize run (init buffers size vars) ops = s at *
  dsimp only
  unfold getBuffer
  cases hf : firstFree s.available with
  | none => exact Or.inl (firstFree_none hf)
  | some k =>
    dsimp only
    by_cases hsz : s.sizes.getD k 0 < n
    · rw [if_pos hsz]
      exact Or.inr ⟨k, hsz⟩
    · rw [if_neg hsz]
      refine ⟨rfl, ?_⟩
      intro h m' hh
      have hb := (hi.bounds k 1 (firstFree_some hf).1).2
      have c1 := countP_set_of (refers k) s.holders h _ none hh
      have e1 : (refers k (some (k, m'))).toNat = 1 := by simp [refers]
      rw [e1, refers_none] at c1
      unfold users at hb
      simp at c1
      omega

/-- **C23.** As long as no assignment replaces a non-empty holder, all buffers are available again
once the holders are gone — and at any time exactly the buffers not referred to are available. -/
theorem all_returned (buffers size vars : Nat) (ops : List Op)
    (ht : Tidy (init buffers size vars) ops) (k : Nat) (hk : k < buffers) :
    (run (init buffers size vars) ops).available[k]? = some 1 ↔
      ∀ h n : Nat, (run (init buffers size vars) ops).holders[h]? ≠ some (some (k, n)) := by
  obtain ⟨hi, he⟩ := exact_run (inv_init buffers size vars).1 (inv_init buffers size vars).2 ops ht
  have hlen : ∀ (ops : List Op) (s : State), (run s ops).available.length = s.available.length := by
    intro ops
    induction ops with
    | nil => intro s; rfl
    | cons op ops ih =>
      intro s
      show (run (step s op) ops).available.length = _
      rw [ih]
      cases op with
      | get h n =>
        simp only [step]
        split
        · unfold getBuffer
          split
          · rfl
          · split
            · rfl
            · exact bump_length _ _ _
        · rfl
      | move d c =>
        simp only [step]
        split
        · split <;> rfl
        · rfl
      | drop h =>
        simp only [step]
        split
        · exact bump_length _ _ _
        · rfl
      | resize n => simp [step]
  have hklt : k < (run (init buffers size vars) ops).available.length := by
    rw [hlen]
    simpa [init] using hk
  generalize run (init buffers size vars) ops = s at *
  obtain ⟨v, hv⟩ : ∃ v, s.available[k]? = some v := ⟨_, List.getElem?_eq_getElem hklt⟩
  have hx := he k v hv
  constructor
  · intro h1 h n hh
    rw [hv] at h1
    cases h1
    have : 0 < users s k := List.countP_pos_iff.2 ⟨_, List.mem_of_getElem? hh, by simp [refers]⟩
    omega
  · intro hno
    have : users s k = 0 := by
      unfold users
      rw [List.countP_eq_zero]
      intro w hw
      obtain ⟨h, hh⟩ := List.mem_iff_getElem?.1 hw
      cases w with
      | none => simp [refers]
      | some p =>
        obtain ⟨j, n⟩ := p
        by_cases hj : j = k
        · subst hj
          exact absurd hh (hno h n)
        · simp [refers, hj]
    rw [hv]
    congr 1
    omega

/-- Two buffers, three variables: lend, lend, fail, return, lend again, move. -/
example : run (init 2 64 3) [.get 0 10, .get 1 64, .get 2 5, .drop 0, .get 2 5, .move 0 2] =
    { sizes := [64, 64], available := [0, 0], holders := [some (0, 5), some (1, 64), none] } := by
  decide

example : Tidy (init 2 64 3) [.get 0 10, .get 1 64, .drop 0, .get 2 5, .move 0 2] := by
  simp [Tidy, step, init, getBuffer, firstFree, bump]

/-- Assigning over a non-empty holder loses its buffer: with all holders gone it stays unavailable.
(`SpanHolder`'s move assignment, BufferPool.h:35-41, does not give the old buffer back.) -/
theorem all_returned_violated : ∃ (ops : List Op), Sane (init 1 64 1) ops ∧
    AllEmpty (run (init 1 64 1) ops) ∧ (run (init 1 64 1) ops).available = [0] :=
  ⟨[.get 0 10, .get 0 10], by simp [Sane], by unfold AllEmpty; decide, by decide⟩

end Verif.BufferPool
