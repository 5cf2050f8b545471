import Verif.FilePool.Model
import Mathlib.Tactic.Linarith

/-!
# The invariant behind the protocol
-/

namespace Verif.FilePool

/-- Counts in `readerCount`. -/
def holding : Holder → Bool
  | .free => false
  | _ => true

/-- Has the token to write the sample. -/
def active : Loader → Bool
  | .taken | .streaming | .wrote _ | .streamed => true
  | _ => false

/-- Has set the status to `GarbageCollecting`. -/
def gcBusy : Gc → Bool
  | .swapped _ | .cleared | .zeroed | .moved | .refused _ => true
  | _ => false

/-- Is going to take the data away. -/
def gcTakes : Gc → Bool
  | .cleared | .zeroed | .moved => true
  | _ => false

/-- What is known about a holder. -/
def HolderOk (s : State) : Holder → Prop
  | .free | .held | .viewHead => True
  | .sawOk => gcTakes s.gc = false
  | .sawEnough => gcTakes s.gc = false ∧ 0 < s.available
  | .gotSpan b => gcTakes s.gc = false ∧ 0 < s.available ∧ b = s.buffer
  | .view b n => gcTakes s.gc = false ∧ 0 < s.available ∧ b = s.buffer ∧ n ≤ s.written

/-- What is known about a job. -/
def LoaderOk (s : State) : Loader → Prop
  | .taken => s.buffer = none ∧ s.available = 0
  | .streaming => s.buffer ≠ none
  | .wrote n => s.buffer ≠ none ∧ s.available + n ≤ s.written
  | _ => True

/-- What is known about the collection. -/
def GcOk (s : State) : Gc → Prop
  | .willSwap .preloaded => s.status = .streaming ∨ s.status = .done
  | .willSwap st => st = .done
  | .swapped st => st = .done
  | .refused st => st = .done
  | .zeroed => s.available = 0
  | .moved => s.buffer = none ∧ s.available = 0
  | _ => True

structure Inv (s : State) : Prop where
  readers : s.readers = (s.holders.countP holding : Int)
  token : s.loaders.countP active = if s.status = .streaming then 1 else 0
  busy : gcBusy s.gc = true ↔ s.status = .collecting
  empty : s.status = .invalid ∨ s.status = .preloaded → s.buffer = none ∧ s.available = 0
  full : 0 < s.available → s.buffer ≠ none
  published : s.available ≤ s.written
  holderOk : ∀ h ∈ s.holders, HolderOk s h
  loaderOk : ∀ l ∈ s.loaders, LoaderOk s l
  gcOk : GcOk s s.gc
  current : ∀ b, s.buffer = some b → b < s.nextId ∧ b ∉ s.garbage ∧ b ∉ s.freed
  past : ∀ b, b ∈ s.garbage ∨ b ∈ s.freed → b < s.nextId

/-! ## Lists -/

theorem countP_set_of {α : Type} (p : α → Bool) (l : List α) (i : Nat) (a b : α)
    (h : l[i]? = some a) :
    (l.set i b).countP p + (if p a then 1 else 0) = l.countP p + (if p b then 1 else 0) := by
  induction l generalizing i with
  | nil => simp at h
  | cons x l ih =>
    cases i with
    | zero =>
      simp at h
      subst h
      simp only [List.set_cons_zero, List.countP_cons]
      omega
    | succ i =>
      have := ih i (by simpa using h)
      simp only [List.set_cons_succ, List.countP_cons]
      omega

theorem mem_set_cases {α : Type} {l : List α} {i : Nat} {a b : α} (h : a ∈ l.set i b) :
    a = b ∨ a ∈ l := by
  rcases List.mem_or_eq_of_mem_set h with h | h
  · exact Or.inr h
  · exact Or.inl h

theorem others_not {α : Type} (p : α → Bool) (l : List α) (i : Nat) (a b : α)
    (h : l[i]? = some a) (hp : p a = true) (hc : l.countP p = 1) :
    ∀ x ∈ l.set i b, x = b ∨ p x = false := by
  induction l generalizing i with
  | nil => simp at h
  | cons y l ih =>
    cases i with
    | zero =>
      simp at h
      subst h
      rw [List.countP_cons, if_pos hp] at hc
      have h0 : l.countP p = 0 := by omega
      intro x hx
      rcases List.mem_cons.1 hx with rfl | hx
      · exact Or.inl rfl
      · right
        have := List.countP_eq_zero.1 h0 x hx
        simpa using this
    | succ i =>
      have hi : l[i]? = some a := by simpa using h
      have hmem : a ∈ l := List.mem_of_getElem? hi
      have hpos : 0 < l.countP p := List.countP_pos_iff.2 ⟨a, hmem, hp⟩
      rw [List.countP_cons] at hc
      have hy : p y = false := by
        by_contra hne
        rw [if_pos (by simpa using hne)] at hc
        omega
      have h1 : l.countP p = 1 := by
        rw [hy] at hc
        simpa using hc
      intro x hx
      rcases List.mem_cons.1 hx with rfl | hx
      · exact Or.inr hy
      · exact ih i hi h1 x hx

theorem none_active {s : State} (hi : Inv s) (h : s.status ≠ .streaming) :
    ∀ l ∈ s.loaders, active l = false := by
  have := hi.token
  rw [if_neg h] at this
  intro l hl
  simpa using List.countP_eq_zero.1 this l hl

theorem none_holding {s : State} (hi : Inv s) (h : s.readers = 0) :
    ∀ x ∈ s.holders, x = .free := by
  have hz := hi.readers
  rw [h] at hz
  have : s.holders.countP holding = 0 := by omega
  intro x hx
  have hx := List.countP_eq_zero.1 this x hx
  cases x with
  | free => rfl
  | _ => simp [holding] at hx

theorem loaderOk_inactive {s : State} {l : Loader} (h : active l = false) : LoaderOk s l := by
  cases l <;> simp_all [LoaderOk, active]

/-! ## Holders -/

theorem inv_setHolder {s : State} (hi : Inv s) {i : Nat} {old new : Holder} {r : Int}
    (hold : s.holders[i]? = some old) (hok : HolderOk s new)
    (hr : r + (if holding old then 1 else 0) = s.readers + (if holding new then 1 else 0)) :
    Inv { setHolder s i new with readers := r } := by
  obtain ⟨h1, h2, h3, h4, h5, h6, h7, h8, h9, h10, h11⟩ := hi
  refine ⟨?_, h2, h3, h4, h5, h6, ?_, h8, h9, h10, h11⟩
  · have := countP_set_of holding s.holders i old new hold
    simp only [setHolder]
    rw [h1] at hr
    cases hn : holding new <;> cases ho : holding old <;> simp_all <;> omega
  · intro h hh
    rcases mem_set_cases hh with rfl | hh
    · exact hok
    · exact h7 h hh

theorem inv_holderStep {s s' : State} (hi : Inv s) {a : Action} (h : holderStep s a = some s') :
    Inv s' := by
  have noReaders : ∀ (t : State) (i : Nat) (x : Holder),
      { setHolder t i x with readers := t.readers } = setHolder t i x := fun _ _ _ => rfl
  cases a with
  | acquire i =>
    simp only [holderStep] at h
    split at h
    · cases h
      exact inv_setHolder hi ‹_› trivial (by simp [holding])
    · cases h
  | release i =>
    simp only [holderStep] at h
    split at h
    · cases h
      exact inv_setHolder hi ‹_› trivial (by simp [holding])
    · cases h
  | readStatus i =>
    simp only [holderStep] at h
    split at h
    · rename_i hh
      split at h
      · rename_i hst
        cases h
        rw [← noReaders]
        refine inv_setHolder hi hh ?_ (by simp [holding])
        have hb := hi.busy
        simp only [HolderOk]
        cases hg : s.gc <;> simp_all [gcTakes, gcBusy]
      · cases h
        rw [← noReaders]
        exact inv_setHolder hi hh trivial (by simp [holding])
    · cases h
  | readAvailable i =>
    simp only [holderStep] at h
    split at h
    · rename_i hh
      split at h
      · rename_i hav
        cases h
        rw [← noReaders]
        refine inv_setHolder hi hh ?_ (by simp [holding])
        have := hi.holderOk _ (List.mem_of_getElem? hh)
        exact ⟨this, by omega⟩
      · cases h
        rw [← noReaders]
        exact inv_setHolder hi hh trivial (by simp [holding])
    · cases h
  | readSpan i =>
    simp only [holderStep] at h
    split at h
    · rename_i hh
      cases h
      rw [← noReaders]
      refine inv_setHolder hi hh ?_ (by simp [holding])
      have := hi.holderOk _ (List.mem_of_getElem? hh)
      exact ⟨this.1, this.2, rfl⟩
    · cases h
  | sizeView i =>
    simp only [holderStep] at h
    split at h
    · rename_i b hh
      cases h
      rw [← noReaders]
      refine inv_setHolder hi hh ?_ (by simp [holding])
      have := hi.holderOk _ (List.mem_of_getElem? hh)
      exact ⟨this.1, this.2.1, this.2.2, hi.published⟩
    · cases h
  | dropView i =>
    simp only [holderStep] at h
    split at h
    · rename_i hh
      cases h
      rw [← noReaders]
      exact inv_setHolder hi hh trivial (by simp [holding])
    · rename_i hh
      cases h
      rw [← noReaders]
      exact inv_setHolder hi hh trivial (by simp [holding])
    · cases h
  | _ => simp [holderStep] at h

/-! ## Jobs -/

/-- A move of a job which changes neither the shared variables nor who has the token. -/
theorem inv_setLoader {s : State} (hi : Inv s) {j : Nat} {old new : Loader} {m : Option Owner}
    (hold : s.loaders[j]? = some old) (hok : LoaderOk s new) (ha : active new = active old) :
    Inv { setLoader s j new with mutex := m } := by
  obtain ⟨h1, h2, h3, h4, h5, h6, h7, h8, h9, h10, h11⟩ := hi
  refine ⟨h1, ?_, h3, h4, h5, h6, h7, ?_, h9, h10, h11⟩
  · have := countP_set_of active s.loaders j old new hold
    rw [ha] at this
    simp only [setLoader]
    refine Eq.trans ?_ h2
    omega
  · intro l hl
    rcases mem_set_cases hl with rfl | hl
    · exact hok
    · exact h8 l hl

theorem status_of_active {s : State} (hi : Inv s) {j : Nat} {l : Loader}
    (h : s.loaders[j]? = some l) (ha : active l = true) : s.status = .streaming := by
  by_contra hne
  have := none_active hi hne l (List.mem_of_getElem? h)
  rw [this] at ha
  cases ha

theorem one_active {s : State} (hi : Inv s) (h : s.status = .streaming) :
    s.loaders.countP active = 1 := by
  rw [hi.token, if_pos h]

theorem inv_loaderStep {s s' : State} (hi : Inv s) {a : Action} (h : loaderStep s a = some s') :
    Inv s' := by
  have noMutex : ∀ (t : State) (j : Nat) (x : Loader),
      { setLoader t j x with mutex := t.mutex } = setLoader t j x := fun _ _ _ => rfl
  cases a with
  | beginJob j =>
    simp only [loaderStep] at h
    split at h
    · rename_i hh
      cases h
      rw [← noMutex]
      exact inv_setLoader hi hh trivial rfl
    · cases h
  | loadStatus j =>
    simp only [loaderStep] at h
    split at h
    · rename_i hh
      split at h
      · cases h
        exact hi
      · cases h
        exact hi
      · cases h
        rw [← noMutex]
        exact inv_setLoader hi hh trivial rfl
      · cases h
        rw [← noMutex]
        exact inv_setLoader hi hh trivial rfl
    · cases h
  | takeToken j =>
    simp only [loaderStep] at h
    split at h
    · rename_i hh
      split at h
      · rename_i hst
        cases h
        have hinact := none_active hi (by rw [hst]; simp)
        have hemp := hi.empty (Or.inr hst)
        obtain ⟨h1, h2, h3, h4, h5, h6, h7, h8, h9, h10, h11⟩ := hi
        refine ⟨h1, ?_, ?_, ?_, h5, h6, h7, ?_, ?_, h10, h11⟩
        · have := countP_set_of active s.loaders j _ .taken hh
          rw [if_neg (by rw [hst]; simp)] at h2
          simp [active] at this
          simp only [setLoader]
          rw [this]
          simpa using h2
        · rw [hst] at h3
          simpa [setLoader] using h3
        · intro hc
          simp at hc
        · intro l hl
          rcases mem_set_cases hl with rfl | hl
          · exact hemp
          · exact loaderOk_inactive (hinact l hl)
        · simp only [setLoader]
          cases hg : s.gc with
          | willSwap st =>
            rw [hg] at h9
            cases st <;> simp_all [GcOk]
          | _ => rw [hg] at h9; simpa [GcOk] using h9
      · cases h
        rw [← noMutex]
        exact inv_setLoader hi hh trivial rfl
    · cases h
  | allocate j =>
    simp only [loaderStep] at h
    split at h
    · rename_i hh
      cases h
      have hst := status_of_active hi hh rfl
      have hone := one_active hi hst
      have hoth := others_not active s.loaders j _ .streaming hh rfl hone
      obtain ⟨hbuf, hav⟩ := hi.loaderOk _ (List.mem_of_getElem? hh)
      have hgb : gcBusy s.gc = false := by
        have := hi.busy
        rw [hst] at this
        simpa using this
      obtain ⟨h1, h2, h3, h4, h5, h6, h7, h8, h9, h10, h11⟩ := hi
      refine ⟨h1, ?_, h3, ?_, ?_, ?_, ?_, ?_, ?_, ?_, ?_⟩
      · have := countP_set_of active s.loaders j _ .streaming hh
        simp [active] at this
        simp only [setLoader]
        exact this.trans h2
      · intro hc
        simp only [setLoader] at hc
        rw [hst] at hc
        simp at hc
      · intro _
        simp
      · show s.available ≤ 0
        omega
      · intro x hx
        have := h7 x hx
        cases x <;> simp_all [HolderOk, setLoader]
      · intro l hl
        rcases hoth l hl with rfl | hl
        · simp [LoaderOk]
        · exact loaderOk_inactive hl
      · simp only [setLoader]
        cases hg : s.gc with
        | willSwap st =>
          rw [hg] at h9
          cases st <;> simp_all [GcOk]
        | _ => rw [hg] at h9 hgb; simp_all [GcOk, gcBusy]
      · intro b hb
        simp only [Option.some.injEq] at hb
        subst hb
        refine ⟨Nat.lt_succ_self _, ?_, ?_⟩
        · intro hg
          have := h11 _ (Or.inl hg)
          omega
        · intro hg
          simp only [hbuf] at hg
          have := h11 _ (Or.inr (by simpa using hg))
          omega
      · intro b hb
        simp only [hbuf, setLoader] at hb
        have := h11 b (by simpa using hb)
        show b < s.nextId + 1
        omega
    · cases h
  | writeChunk j n =>
    simp only [loaderStep] at h
    split at h
    · rename_i hh
      cases h
      have hst := status_of_active hi hh rfl
      have hoth := others_not active s.loaders j _ (.wrote n) hh rfl (one_active hi hst)
      have hbuf := hi.loaderOk _ (List.mem_of_getElem? hh)
      obtain ⟨h1, h2, h3, h4, h5, h6, h7, h8, h9, h10, h11⟩ := hi
      refine ⟨h1, ?_, h3, h4, h5, ?_, ?_, ?_, ?_, h10, h11⟩
      · have := countP_set_of active s.loaders j _ (.wrote n) hh
        simp [active] at this
        simp only [setLoader]
        exact this.trans h2
      · show s.available ≤ s.written + n
        omega
      · intro x hx
        have := h7 x hx
        cases x <;> simp_all [HolderOk, setLoader]
        omega
      · intro l hl
        rcases hoth l hl with rfl | hl
        · exact ⟨hbuf, by show s.available + n ≤ s.written + n; omega⟩
        · exact loaderOk_inactive hl
      · simpa [GcOk, setLoader] using h9
    · cases h
  | publishChunk j =>
    simp only [loaderStep] at h
    split at h
    · rename_i n hh
      cases h
      have hst := status_of_active hi hh rfl
      have hoth := others_not active s.loaders j _ .streaming hh rfl (one_active hi hst)
      obtain ⟨hbuf, hle⟩ := hi.loaderOk _ (List.mem_of_getElem? hh)
      have hgb : gcBusy s.gc = false := by
        have := hi.busy
        rw [hst] at this
        simpa using this
      obtain ⟨h1, h2, h3, h4, h5, h6, h7, h8, h9, h10, h11⟩ := hi
      refine ⟨h1, ?_, h3, ?_, ?_, ?_, ?_, ?_, ?_, h10, h11⟩
      · have := countP_set_of active s.loaders j _ .streaming hh
        simp [active] at this
        simp only [setLoader]
        exact this.trans h2
      · intro hc
        simp only [setLoader] at hc
        rw [hst] at hc
        simp at hc
      · intro _
        exact hbuf
      · exact hle
      · intro x hx
        have := h7 x hx
        cases x <;> simp_all [HolderOk, setLoader] <;> omega
      · intro l hl
        rcases hoth l hl with rfl | hl
        · exact hbuf
        · exact loaderOk_inactive hl
      · simp only [setLoader]
        cases hg : s.gc with
        | willSwap st =>
          rw [hg] at h9
          cases st <;> simp_all [GcOk]
        | _ => rw [hg] at h9 hgb; simp_all [GcOk, gcBusy]
    · cases h
  | endStream j =>
    simp only [loaderStep] at h
    split at h
    · rename_i hh
      cases h
      rw [← noMutex]
      exact inv_setLoader hi hh trivial rfl
    · cases h
  | setDone j =>
    simp only [loaderStep] at h
    split at h
    · rename_i hh
      cases h
      have hst := status_of_active hi hh rfl
      have hoth := others_not active s.loaders j _ .finished hh rfl (one_active hi hst)
      obtain ⟨h1, h2, h3, h4, h5, h6, h7, h8, h9, h10, h11⟩ := hi
      refine ⟨h1, ?_, ?_, ?_, h5, h6, h7, ?_, ?_, h10, h11⟩
      · have := countP_set_of active s.loaders j _ .finished hh
        simp [active] at this
        rw [if_pos hst] at h2
        simp only [setLoader]
        have : (s.loaders.set j Loader.finished).countP active = 0 := by
          have e : (s.loaders.set j Loader.finished).countP active =
              List.countP active (s.loaders.set j Loader.finished) := rfl
          omega
        simpa using this
      · rw [hst] at h3
        simpa [setLoader] using h3
      · intro hc
        simp at hc
      · intro l hl
        rcases hoth l hl with rfl | hl
        · trivial
        · exact loaderOk_inactive hl
      · simp only [setLoader]
        cases hg : s.gc with
        | willSwap st =>
          rw [hg] at h9
          cases st <;> simp_all [GcOk]
        | _ => rw [hg] at h9; simpa [GcOk] using h9
    · cases h
  | lockJob j =>
    simp only [loaderStep] at h
    split at h
    · rename_i hh
      cases h
      exact inv_setLoader hi hh.1 trivial rfl
    · cases h
  | unlockJob j =>
    simp only [loaderStep] at h
    split at h
    · rename_i hh
      cases h
      exact inv_setLoader hi hh trivial rfl
    · cases h
  | _ => simp [loaderStep] at h

/-! ## Collection -/

/-- A move of the collection which changes nothing shared. -/
theorem inv_setGc {s : State} (hi : Inv s) {g : Gc} {m : Option Owner} (hb : gcBusy g = gcBusy s.gc)
    (ht : gcTakes g = true → gcTakes s.gc = true) (hok : GcOk s g) :
    Inv { s with gc := g, mutex := m } := by
  obtain ⟨h1, h2, h3, h4, h5, h6, h7, h8, h9, h10, h11⟩ := hi
  refine ⟨h1, h2, by rw [← h3, ← hb], h4, h5, h6, ?_, h8, ?_, h10, h11⟩
  · intro x hx
    have := h7 x hx
    have hg : gcTakes s.gc = false → gcTakes g = false := by
      intro h
      cases hg : gcTakes g
      · rfl
      · rw [ht hg] at h
        cases h
    cases x <;> simp_all [HolderOk]
  · cases g with
    | willSwap st => cases st <;> exact hok
    | _ => exact hok

theorem inv_gcStep {s s' : State} (hi : Inv s) {a : Action} (h : gcStep s a = some s') : Inv s' := by
  cases a with
  | gcTryLock =>
    simp only [gcStep] at h
    split at h
    · rename_i hh
      cases h
      exact inv_setGc hi (by rw [hh.1]; rfl) (by simp [gcTakes]) trivial
    · cases h
  | gcCheckReaders e =>
    simp only [gcStep] at h
    split at h
    · rename_i hh
      split at h
      · cases h
        exact inv_setGc (m := s.mutex) hi (by rw [hh]; rfl) (by simp [gcTakes]) trivial
      · cases h
        exact inv_setGc (m := s.mutex) hi (by rw [hh]; rfl) (by simp [gcTakes]) trivial
    · cases h
  | gcLoadStatus =>
    simp only [gcStep] at h
    split at h
    · rename_i hh
      cases h
      exact inv_setGc (m := s.mutex) hi (by rw [hh]; rfl) (by simp [gcTakes]) trivial
    · cases h
  | gcDecide =>
    simp only [gcStep] at h
    split at h
    · rename_i hh
      split at h
      · cases h
        exact inv_setGc (m := s.mutex) hi (by rw [hh]; rfl) (by simp [gcTakes]) trivial
      · rename_i hav
        cases h
        refine inv_setGc (m := s.mutex) hi (by rw [hh]; rfl) (by simp [gcTakes]) ?_
        have he := hi.empty
        have hb := hi.busy
        rw [hh] at hb
        simp only [GcOk]
        cases hs : s.status <;> simp_all [gcBusy]
    · rename_i hh
      cases h
      exact inv_setGc (m := s.mutex) hi (by rw [hh]; rfl) (by simp [gcTakes]) rfl
    · rename_i hh
      cases h
      exact inv_setGc (m := s.mutex) hi (by rw [hh]; rfl) (by simp [gcTakes]) trivial
    · cases h
  | gcSwap =>
    simp only [gcStep] at h
    split at h
    · rename_i st hh
      split at h
      · rename_i heq
        cases h
        have hok := hi.gcOk
        rw [hh] at hok
        have hst : st = .done := by
          subst heq
          cases hs : s.status <;> rw [hs] at hok <;> simp_all [GcOk]
        subst hst
        have hna := none_active hi (by rw [heq]; simp)
        obtain ⟨h1, h2, h3, h4, h5, h6, h7, h8, h9, h10, h11⟩ := hi
        refine ⟨h1, ?_, ?_, ?_, h5, h6, ?_, ?_, rfl, h10, h11⟩
        · rw [if_neg (by rw [heq]; simp)] at h2
          simpa using h2
        · simp [gcBusy]
        · intro hc
          simp at hc
        · intro x hx
          have := h7 x hx
          cases x <;> simp_all [HolderOk, gcTakes]
        · intro l hl
          exact loaderOk_inactive (hna l hl)
      · cases h
        exact inv_setGc (m := s.mutex) hi (by rw [hh]; rfl) (by simp [gcTakes]) trivial
    · cases h
  | gcRecheck =>
    simp only [gcStep] at h
    split at h
    · rename_i st hh
      cases h
      have hok := hi.gcOk
      rw [hh] at hok
      split
      · rename_i hr
        have hfree := none_holding hi hr
        have hb := hi.busy
        obtain ⟨h1, h2, h3, h4, h5, h6, h7, h8, h9, h10, h11⟩ := hi
        refine ⟨h1, h2, ?_, h4, h5, h6, ?_, h8, trivial, h10, h11⟩
        · rw [hh] at hb
          simpa [gcBusy] using hb
        · intro x hx
          rw [hfree x hx]
          trivial
      · exact inv_setGc (m := s.mutex) hi (by rw [hh]; rfl) (by simp [gcTakes]) hok
    · cases h
  | gcZero =>
    simp only [gcStep] at h
    split at h
    · rename_i hh
      cases h
      have hst : s.status = .collecting := hi.busy.1 (by rw [hh]; rfl)
      have hna := none_active hi (by rw [hst]; simp)
      obtain ⟨h1, h2, h3, h4, h5, h6, h7, h8, h9, h10, h11⟩ := hi
      refine ⟨h1, h2, ?_, ?_, ?_, Nat.zero_le _, ?_, ?_, rfl, h10, h11⟩
      · simp [gcBusy, hst]
      · intro hc
        simp [hst] at hc
      · intro hc
        simp at hc
      · intro x hx
        have := h7 x hx
        cases x <;> simp_all [HolderOk, gcTakes]
      · intro l hl
        exact loaderOk_inactive (hna l hl)
    · cases h
  | gcMove =>
    simp only [gcStep] at h
    split at h
    · rename_i hh
      cases h
      have hst : s.status = .collecting := hi.busy.1 (by rw [hh]; rfl)
      have hna := none_active hi (by rw [hst]; simp)
      have hav := hi.gcOk
      rw [hh] at hav
      obtain ⟨h1, h2, h3, h4, h5, h6, h7, h8, h9, h10, h11⟩ := hi
      refine ⟨h1, h2, ?_, ?_, ?_, h6, ?_, ?_, ⟨rfl, hav⟩, ?_, ?_⟩
      · simp [gcBusy, hst]
      · intro hc
        simp [hst] at hc
      · intro hc
        have h0 : s.available = 0 := hav
        simp [h0] at hc
      · intro x hx
        have := h7 x hx
        cases x <;> simp_all [HolderOk, gcTakes]
      · intro l hl
        exact loaderOk_inactive (hna l hl)
      · intro b hb
        simp at hb
      · intro b hb
        simp only [List.mem_append, Option.mem_toList] at hb
        rcases hb with (hb | hb) | hb
        · exact (h10 b hb).1
        · exact h11 b (Or.inl hb)
        · exact h11 b (Or.inr hb)
    · cases h
  | gcFinish =>
    simp only [gcStep] at h
    split at h
    · rename_i hh
      cases h
      have hst : s.status = .collecting := hi.busy.1 (by rw [hh]; rfl)
      have hok := hi.gcOk
      rw [hh] at hok
      obtain ⟨h1, h2, h3, h4, h5, h6, h7, h8, h9, h10, h11⟩ := hi
      refine ⟨h1, ?_, ?_, fun _ => hok, h5, h6, ?_, h8, trivial, h10, h11⟩
      · rw [if_neg (by rw [hst]; simp)] at h2
        simpa using h2
      · simp [gcBusy]
      · intro x hx
        have := h7 x hx
        cases x <;> simp_all [HolderOk, gcTakes]
    · cases h
  | gcRestore =>
    simp only [gcStep] at h
    split at h
    · rename_i st hh
      cases h
      have hst : s.status = .collecting := hi.busy.1 (by rw [hh]; rfl)
      have hok := hi.gcOk
      rw [hh] at hok
      have hd : st = .done := hok
      subst hd
      obtain ⟨h1, h2, h3, h4, h5, h6, h7, h8, h9, h10, h11⟩ := hi
      refine ⟨h1, ?_, ?_, ?_, h5, h6, ?_, h8, trivial, h10, h11⟩
      · rw [if_neg (by rw [hst]; simp)] at h2
        simpa using h2
      · simp [gcBusy]
      · intro hc
        simp at hc
      · intro x hx
        have := h7 x hx
        cases x <;> simp_all [HolderOk, gcTakes]
    · cases h
  | gcUnlock =>
    simp only [gcStep] at h
    split at h
    · rename_i hh
      cases h
      exact inv_setGc hi (by rw [hh]; rfl) (by simp [gcTakes]) trivial
    · cases h
  | _ => simp [gcStep] at h

theorem inv_collectorStep {s s' : State} (hi : Inv s) {a : Action}
    (h : collectorStep s a = some s') : Inv s' := by
  obtain ⟨h1, h2, h3, h4, h5, h6, h7, h8, h9, h10, h11⟩ := hi
  cases a with
  | collectLock =>
    simp only [collectorStep] at h
    split at h
    · cases h
      exact ⟨h1, h2, h3, h4, h5, h6, h7, h8, h9, h10, h11⟩
    · cases h
  | collectClear =>
    simp only [collectorStep] at h
    split at h
    · cases h
      refine ⟨h1, h2, h3, h4, h5, h6, h7, h8, h9, ?_, ?_⟩
      · intro b hb
        obtain ⟨a1, a2, a3⟩ := h10 b hb
        exact ⟨a1, by simp, by simp [a2, a3]⟩
      · intro b hb
        simp at hb
        exact h11 b hb
    · cases h
  | collectUnlock =>
    simp only [collectorStep] at h
    split at h
    · cases h
      exact ⟨h1, h2, h3, h4, h5, h6, h7, h8, h9, h10, h11⟩
    · cases h
  | _ => simp [collectorStep] at h

theorem inv_step {s s' : State} (hi : Inv s) {a : Action} (h : step s a = some s') : Inv s' := by
  have hany : ∀ b : Action, ((holderStep s b).orElse fun _ =>
      (loaderStep s b).orElse fun _ => (gcStep s b).orElse fun _ => collectorStep s b) = some s' →
      Inv s' := by
    intro b hb
    cases h1 : holderStep s b with
    | some x =>
      rw [h1] at hb
      cases hb
      exact inv_holderStep hi h1
    | none =>
      rw [h1] at hb
      cases h2 : loaderStep s b with
      | some x =>
        rw [h2] at hb
        cases hb
        exact inv_loaderStep hi h2
      | none =>
        rw [h2] at hb
        cases h3 : gcStep s b with
        | some x =>
          rw [h3] at hb
          cases hb
          exact inv_gcStep hi h3
        | none =>
          rw [h3] at hb
          exact inv_collectorStep hi hb
  cases a with
  | publishEntry =>
    simp only [step] at h
    split at h
    · rename_i hst
      cases h
      have hemp := hi.empty (Or.inl hst)
      obtain ⟨h1, h2, h3, h4, h5, h6, h7, h8, h9, h10, h11⟩ := hi
      refine ⟨h1, ?_, ?_, fun _ => hemp, h5, h6, h7, h8, ?_, h10, h11⟩
      · rw [if_neg (by rw [hst]; simp)] at h2
        simpa using h2
      · rw [hst] at h3
        simpa using h3
      · show GcOk _ s.gc
        cases hg : s.gc with
        | willSwap st =>
          rw [hg] at h9
          cases st <;> simp_all [GcOk]
        | _ => rw [hg] at h9; simpa [GcOk] using h9
    · cases h
  | _ =>
    simp only [step] at h
    exact hany _ h

theorem inv_init (head holders loaders : Nat) : Inv (init head holders loaders) := by
  refine ⟨?_, ?_, ?_, ?_, ?_, ?_, ?_, ?_, trivial, ?_, ?_⟩
  · simp [init, List.countP_replicate, holding]
  · simp [init, List.countP_replicate, active]
  · simp [init, gcBusy]
  · simp [init]
  · simp [init]
  · simp [init]
  · intro h hh
    rw [List.eq_of_mem_replicate hh]
    trivial
  · intro l hl
    rw [List.eq_of_mem_replicate hl]
    trivial
  · intro b hb
    simp [init] at hb
  · intro b hb
    simp [init] at hb

theorem inv_reachable {head holders loaders : Nat} {s : State}
    (h : Reachable head holders loaders s) : Inv s := by
  induction h with
  | start => exact inv_init _ _ _
  | next a _ hstep ih => exact inv_step ih hstep

end Verif.FilePool
