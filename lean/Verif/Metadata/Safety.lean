import Verif.Metadata.Model
import Mathlib.Tactic.Linarith

/-!
# Metadata of arbitrary bytes: termination, memory safety, agreement of the two sources
-/

namespace Verif.Metadata

theorem readOne_ok {s : Src} {pos size : Nat} {b : List UInt8} {p : Nat}
    (h : readOne s pos size = .ok (b, p)) :
    p = pos + size ∧ p ≤ s.size ∧ 0 < size ∧ b = slice s.bytes pos size := by
  unfold readOne at h
  split at h
  · split at h
    · cases h
    · split at h
      · cases h
        exact ⟨rfl, by assumption, by omega, rfl⟩
      · cases h
  · split at h
    · cases h
    · split at h
      · cases h
      · split at h
        · cases h
          exact ⟨rfl, by assumption, by omega, rfl⟩
        · cases h

theorem readOne_not_stuck (s : Src) (pos size : Nat) : readOne s pos size ≠ .stuck := by
  unfold readOne
  split <;> (repeat' split) <;> simp

theorem readOne_bad {s : Src} {pos size : Nat} (h : readOne s pos size = .bad) :
    s.kind = .memory ∧ (size = 0 ∨ s.size < pos) := by
  unfold readOne at h
  split at h
  · split at h
    · cases h
    · split at h <;> cases h
  · rename_i hk
    refine ⟨hk, ?_⟩
    split at h
    · left; assumption
    · split at h
      · right; assumption
      · split at h <;> cases h

theorem seek_ok {s : Src} {t p : Nat} (h : seek s t = .ok p) :
    p = t ∧ (s.kind = .memory → p ≤ s.size) := by
  unfold seek at h
  split at h
  · rename_i hk
    cases h
    exact ⟨rfl, by rw [hk]; intro h; cases h⟩
  · split at h
    · cases h
      exact ⟨rfl, fun _ => by assumption⟩
    · cases h

theorem seek_not_stuck (s : Src) (t : Nat) : seek s t ≠ .stuck := by
  unfold seek
  split
  · simp
  · split <;> simp

theorem seek_not_bad (s : Src) (t : Nat) : seek s t ≠ .bad := by
  unfold seek
  split
  · simp
  · split <;> simp

/-- A position the code can be at. -/
def Sound (s : Src) (pos : Nat) : Prop := s.kind = .memory → pos ≤ s.size

theorem readOne_safe {s : Src} {pos size : Nat} (hp : Sound s pos) (hs : 0 < size) :
    readOne s pos size ≠ .bad := by
  intro h
  obtain ⟨hk, h0 | hlt⟩ := readOne_bad h
  · omega
  · have := hp hk
    omega

theorem readOne_sound {s : Src} {pos size : Nat} {b : List UInt8} {p : Nat}
    (h : readOne s pos size = .ok (b, p)) : Sound s p := fun _ => (readOne_ok h).2.1

theorem seek_sound {s : Src} {t p : Nat} (h : seek s t = .ok p) : Sound s p := (seek_ok h).2

/-! ## The walkers -/

theorem walk_total (s : Src) (num : List UInt8 → Nat) (fuel pos : Nat) (acc : List Chunk)
    (h0 : 0 < fuel) (hf : s.size < pos + fuel) (hp : Sound s pos) :
    walk s num fuel pos acc ≠ .stuck ∧ walk s num fuel pos acc ≠ .bad := by
  induction fuel generalizing pos acc with
  | zero => omega
  | succ fuel ih =>
    simp only [walk]
    split
    · rename_i h; exact absurd h (readOne_safe hp (by omega))
    · rename_i h; exact absurd h (readOne_not_stuck s pos 4)
    · simp
    · rename_i id p1 h1
      have hs1 := readOne_sound h1
      split
      · rename_i h; exact absurd h (readOne_safe hs1 (by omega))
      · rename_i h; exact absurd h (readOne_not_stuck s p1 4)
      · simp
      · rename_i sb p2 h2
        split
        · rename_i p3 h3
          have hp3 := (seek_ok h3).1
          have e1 := readOne_ok h1
          have e2 := readOne_ok h2
          exact ih p3 _ (by omega) (by omega) (seek_sound h3)
        · simp
        · rename_i h; exact absurd h (seek_not_bad _ _)
        · rename_i h; exact absurd h (seek_not_stuck _ _)

theorem flacRiff_total (s : Src) (pos blockSize : Nat) (hp : Sound s pos) :
    flacRiff s pos blockSize ≠ .stuck ∧ flacRiff s pos blockSize ≠ .bad := by
  unfold flacRiff
  split
  · rename_i b1 p1 h1
    split
    · simp
    · split
      · rename_i b2 p2 h2
        split
        · split <;> simp
        · simp
        · rename_i h; exact absurd h (readOne_safe (readOne_sound h2) (by omega))
        · rename_i h; exact absurd h (readOne_not_stuck _ _ _)
      · simp
      · rename_i h; exact absurd h (readOne_safe (readOne_sound h1) (by omega))
      · rename_i h; exact absurd h (readOne_not_stuck _ _ _)
  · simp
  · rename_i h; exact absurd h (readOne_safe hp (by omega))
  · rename_i h; exact absurd h (readOne_not_stuck _ _ _)

theorem walkFlac_total (s : Src) (fuel pos : Nat) (acc : List Chunk)
    (h0 : 0 < fuel) (hf : s.size < pos + fuel) (hp : Sound s pos) :
    walkFlac s fuel pos acc ≠ .stuck ∧ walkFlac s fuel pos acc ≠ .bad := by
  induction fuel generalizing pos acc with
  | zero => omega
  | succ fuel ih =>
    simp only [walkFlac]
    split
    · rename_i hd p1 h1
      have e1 := readOne_ok h1
      have hs1 := readOne_sound h1
      have hfr := flacRiff_total s p1 (flacSize hd) hs1
      split
      · rename_i h
        split at h
        · exact absurd h hfr.2
        · cases h
      · rename_i h
        split at h
        · exact absurd h hfr.1
        · cases h
      · split
        · rename_i p2 h2
          have e2 := (seek_ok h2).1
          split
          · simp
          · exact ih p2 _ (by omega) (by omega) (seek_sound h2)
        · simp
        · rename_i h; exact absurd h (seek_not_bad _ _)
        · rename_i h; exact absurd h (seek_not_stuck _ _)
    · simp
    · rename_i h; exact absurd h (readOne_safe hp (by omega))
    · rename_i h; exact absurd h (readOne_not_stuck _ _ _)

theorem openAiff_total (s : Src) (fuel : Nat) (hf : s.size < fuel) :
    openAiff s fuel ≠ .stuck ∧ openAiff s fuel ≠ .bad := by
  unfold openAiff
  split
  · rename_i b1 p1 h1
    split
    · simp
    · split
      · rename_i b2 p2 h2
        split
        · rename_i b3 p3 h3
          split
          · simp
          · exact walk_total s _ fuel p3 _ (by omega) (by omega) (readOne_sound h3)
        · simp
        · rename_i h; exact absurd h (readOne_safe (readOne_sound h2) (by omega))
        · rename_i h; exact absurd h (readOne_not_stuck _ _ _)
      · simp
      · rename_i h; exact absurd h (readOne_safe (readOne_sound h1) (by omega))
      · rename_i h; exact absurd h (readOne_not_stuck _ _ _)
  · simp
  · rename_i h; exact absurd h (readOne_safe (fun _ => Nat.zero_le _) (by omega))
  · rename_i h; exact absurd h (readOne_not_stuck _ _ _)

theorem openRiff_total (s : Src) (fuel : Nat) (hf : s.size < fuel) :
    openRiff s fuel ≠ .stuck ∧ openRiff s fuel ≠ .bad := by
  unfold openRiff
  split
  · rename_i p h
    exact walk_total s _ fuel p _ (by omega) (by omega) (seek_sound h)
  · simp
  · rename_i h; exact absurd h (seek_not_bad _ _)
  · rename_i h; exact absurd h (seek_not_stuck _ _)

theorem openFlac_total (s : Src) (fuel : Nat) (hf : s.size < fuel) :
    openFlac s fuel ≠ .stuck ∧ openFlac s fuel ≠ .bad := by
  unfold openFlac
  split
  · rename_i p h
    exact walkFlac_total s fuel p _ (by omega) (by omega) (seek_sound h)
  · simp
  · rename_i h; exact absurd h (seek_not_bad _ _)
  · rename_i h; exact absurd h (seek_not_stuck _ _)

/-- **C45.** Opening terminates on every content — as many loop iterations as the file has bytes
suffice — and never reads outside the file. -/
theorem open_terminates (s : Src) (fuel : Nat) (hf : enough s ≤ fuel) :
    openReader s fuel ≠ .stuck ∧ openReader s fuel ≠ .bad := by
  have hf' : s.size < fuel := hf
  have t1 := openFlac_total s fuel hf'
  have t2 := openRiff_total s fuel hf'
  have t3 := openAiff_total s fuel hf'
  have key : ∀ (t : ChunkType) (r : Res (List Chunk)), r ≠ .stuck ∧ r ≠ .bad →
      r.map (fun cs => (t, cs)) ≠ .stuck ∧ r.map (fun cs => (t, cs)) ≠ .bad := by
    intro t r h
    cases r <;> simp_all [Res.map]
  unfold openReader
  split
  · simp
  · dsimp only
    split
    · exact key _ _ t1
    · split
      · exact key _ _ t2
      · split
        · exact key _ _ t3
        · simp

/-! ## Extraction -/

theorem readRiffData_total (s : Src) (c : Chunk) (n : Nat) :
    ∃ d, readRiffData s c n = .ok d ∧ d.length ≤ n ∧ d.length ≤ c.length := by
  have key : ∀ p, (slice s.bytes p (if n < c.length then n else c.length)).length ≤ n ∧
      (slice s.bytes p (if n < c.length then n else c.length)).length ≤ c.length := by
    intro p
    unfold slice
    rw [List.length_take]
    split <;> omega
  unfold readRiffData
  dsimp only
  split
  · rename_i p h
    have hs := seek_sound h
    unfold readUpTo
    split
    · exact ⟨_, rfl, key p⟩
    · rename_i hk
      have := hs hk
      rw [if_neg (by omega)]
      exact ⟨_, rfl, key p⟩
  · exact ⟨[], rfl, by simp⟩
  · rename_i h; exact absurd h (seek_not_bad _ _)
  · rename_i h; exact absurd h (seek_not_stuck _ _)

theorem extractU32_some {data : List UInt8} {o : Nat} (h : o + 4 ≤ 420) :
    ∃ v, extractU32 data o = some v := by
  unfold extractU32
  rw [if_neg (by omega)]
  split <;> exact ⟨_, rfl⟩

theorem smplLoop_some (data : List UInt8) {i : Nat} (hi : i < 16) : ∃ l, smplLoop data i = some l := by
  unfold smplLoop
  obtain ⟨a, ha⟩ := extractU32_some (data := data) (o := 0x2c - 8 + i * 24 + 0x04) (by omega)
  obtain ⟨b, hb⟩ := extractU32_some (data := data) (o := 0x2c - 8 + i * 24 + 0x08) (by omega)
  obtain ⟨c, hc⟩ := extractU32_some (data := data) (o := 0x2c - 8 + i * 24 + 0x0c) (by omega)
  obtain ⟨d, hd⟩ := extractU32_some (data := data) (o := 0x2c - 8 + i * 24 + 0x14) (by omega)
  dsimp only
  rw [ha, hb, hc, hd]
  exact ⟨_, rfl⟩

theorem mapM_some {α β : Type} (f : α → Option β) (l : List α) (h : ∀ a ∈ l, ∃ b, f a = some b) :
    ∃ r, l.mapM f = some r ∧ r.length = l.length := by
  induction l with
  | nil => exact ⟨[], rfl, rfl⟩
  | cons a l ih =>
    obtain ⟨b, hb⟩ := h a (by simp)
    obtain ⟨r, hr, hl⟩ := ih fun x hx => h x (by simp [hx])
    refine ⟨b :: r, ?_, by simp [hl]⟩
    rw [List.mapM_cons, hb, hr]
    rfl

theorem smplInstrument_some (data : List UInt8) :
    ∃ ins, smplInstrument data = some ins ∧ ins.loops.length ≤ 16 := by
  unfold smplInstrument
  obtain ⟨a, ha⟩ := extractU32_some (data := data) (o := 0x14 - 8) (by omega)
  obtain ⟨b, hb⟩ := extractU32_some (data := data) (o := 0x18 - 8) (by omega)
  obtain ⟨c, hc⟩ := extractU32_some (data := data) (o := 0x24 - 8) (by omega)
  obtain ⟨r, hr, hl⟩ := mapM_some (smplLoop data) (List.range (min 16 c))
    (fun i hi => smplLoop_some data (by rw [List.mem_range] at hi; omega))
  rw [ha, hb, hc]
  simp only [Option.bind_eq_bind, Option.bind_some, hr]
  refine ⟨_, rfl, ?_⟩
  dsimp only
  rw [hl, List.length_range]
  omega

/-- **C45.** Extracting loops from a RIFF or FLAC file never leaves the file or the local buffer of
420 bytes, whatever the chunks are, and gives at most the 16 loops there is room for. -/
theorem riff_extraction_safe (s : Src) (t : ChunkType) (cs : List Chunk) :
    extractRiff s t cs = .fail ∨ ∃ ins, extractRiff s t cs = .ok ins ∧ ins.loops.length ≤ 16 := by
  unfold extractRiff
  split
  · exact Or.inl rfl
  · split
    · exact Or.inl rfl
    · rename_i c _
      obtain ⟨d, hd, _⟩ := readRiffData_total s c 420
      rw [hd]
      dsimp only
      obtain ⟨ins, hi, hl⟩ := smplInstrument_some d
      rw [hi]
      exact Or.inr ⟨ins, rfl, hl⟩

/-! ## Memory and file sources -/

/-- What the memory source yields for the same bytes is what the file yields; where the memory
source runs into undefined behaviour, the file reports failure. -/
def Agree {α : Type} (m f : Res α) : Prop := (∀ x, m = .ok x → f = .ok x) ∧ (m = .bad → f = .fail)

def mem (b : List UInt8) : Src := { kind := .memory, bytes := b }
def file (b : List UInt8) : Src := { kind := .file, bytes := b }

theorem readOne_agree (b : List UInt8) {pos : Nat} (size : Nat) (hp : pos ≤ b.length) :
    (readOne (mem b) pos size = .bad ∧ readOne (file b) pos size = .fail ∧ size = 0) ∨
    (readOne (mem b) pos size = readOne (file b) pos size ∧ readOne (mem b) pos size ≠ .bad) := by
  have hsz : (mem b).size = b.length := rfl
  by_cases h0 : size = 0
  · left
    subst h0
    exact ⟨by simp [readOne, mem], by simp [readOne, file], rfl⟩
  · right
    have hnb := readOne_safe (s := mem b) (pos := pos) (size := size) (fun _ => hp) (by omega)
    refine ⟨?_, hnb⟩
    have hnot : ¬ b.length < pos := by omega
    by_cases hc : pos + size ≤ b.length <;> simp [readOne, mem, file, h0, Src.size, hnot, hc]

theorem seek_agree (b : List UInt8) (t : Nat) :
    (seek (mem b) t = .ok t ∧ t ≤ b.length ∧ seek (file b) t = .ok t) ∨
    (seek (mem b) t = .fail ∧ seek (file b) t = .ok t) := by
  unfold seek
  simp only [mem, file, Src.size]
  by_cases h : t ≤ b.length
  · left; simp [h]
  · right; simp [h]

theorem agree_fail {α : Type} (f : Res α) : Agree (.fail : Res α) f :=
  ⟨fun x h => (by cases h), fun h => (by cases h)⟩

theorem agree_refl {α : Type} {r : Res α} (h : r ≠ .bad) : Agree r r :=
  ⟨fun _ h => h, fun h' => absurd h' h⟩

theorem walk_agree (b : List UInt8) (num : List UInt8 → Nat) (fuel pos : Nat) (acc : List Chunk)
    (hp : pos ≤ b.length) :
    Agree (walk (mem b) num fuel pos acc) (walk (file b) num fuel pos acc) := by
  induction fuel generalizing pos acc with
  | zero => exact agree_refl (by simp [walk])
  | succ fuel ih =>
    simp only [walk]
    rcases readOne_agree b 4 hp with h | ⟨he, hnb⟩
    · omega
    · rw [← he]
      cases h1 : readOne (mem b) pos 4 with
      | bad => exact absurd h1 hnb
      | stuck => exact absurd h1 (readOne_not_stuck _ _ _)
      | fail => exact agree_refl (by simp)
      | ok r =>
        obtain ⟨id, p1⟩ := r
        dsimp only
        have hp1 : p1 ≤ b.length := (readOne_ok h1).2.1
        rcases readOne_agree b 4 hp1 with h | ⟨he2, hnb2⟩
        · omega
        · rw [← he2]
          cases h2 : readOne (mem b) p1 4 with
          | bad => exact absurd h2 hnb2
          | stuck => exact absurd h2 (readOne_not_stuck _ _ _)
          | fail => exact agree_refl (by simp)
          | ok r =>
            obtain ⟨sb, p2⟩ := r
            dsimp only
            rcases seek_agree b (p2 + padded (num sb)) with ⟨h3, hle, h4⟩ | ⟨h3, h4⟩
            · rw [h3, h4]
              exact ih _ _ hle
            · rw [h3]
              exact agree_fail _

theorem flacRiff_agree (b : List UInt8) (pos bs : Nat) (hp : pos ≤ b.length) :
    flacRiff (mem b) pos bs = flacRiff (file b) pos bs := by
  unfold flacRiff
  rcases readOne_agree b 4 hp with h | ⟨he, _⟩
  · omega
  · rw [← he]
    cases h1 : readOne (mem b) pos 4 with
    | ok r =>
      obtain ⟨b1, p1⟩ := r
      dsimp only
      have hp1 : p1 ≤ b.length := (readOne_ok h1).2.1
      rcases readOne_agree b 4 hp1 with h | ⟨he2, _⟩
      · omega
      · rw [← he2]
        cases h2 : readOne (mem b) p1 4 with
        | ok r =>
          obtain ⟨b2, p2⟩ := r
          dsimp only
          have hp2 : p2 ≤ b.length := (readOne_ok h2).2.1
          rcases readOne_agree b 4 hp2 with h | ⟨he3, _⟩
          · omega
          · rw [← he3]
        | _ => rfl
    | _ => rfl

theorem walkFlac_agree (b : List UInt8) (fuel pos : Nat) (acc : List Chunk) (hp : pos ≤ b.length) :
    Agree (walkFlac (mem b) fuel pos acc) (walkFlac (file b) fuel pos acc) := by
  induction fuel generalizing pos acc with
  | zero => exact agree_refl (by simp [walkFlac])
  | succ fuel ih =>
    simp only [walkFlac]
    rcases readOne_agree b 4 hp with h | ⟨he, hnb⟩
    · omega
    · rw [← he]
      cases h1 : readOne (mem b) pos 4 with
      | bad => exact absurd h1 hnb
      | stuck => exact absurd h1 (readOne_not_stuck _ _ _)
      | fail => exact agree_refl (by simp)
      | ok r =>
        obtain ⟨hd, p1⟩ := r
        dsimp only
        have hp1 : p1 ≤ b.length := (readOne_ok h1).2.1
        rw [← flacRiff_agree b p1 _ hp1]
        have htot := flacRiff_total (mem b) p1 (flacSize hd) (fun _ => hp1)
        generalize hfound : (if flacType hd = 2
          then flacRiff (mem b) p1 (flacSize hd) else Res.fail) = found
        have hfb : found ≠ .bad ∧ found ≠ .stuck := by
          rw [← hfound]
          split
          · exact ⟨htot.2, htot.1⟩
          · simp
        rcases seek_agree b (p1 + flacSize hd) with ⟨h3, hle, h4⟩ | ⟨h3, h4⟩
        · rw [h3, h4]
          cases found with
          | bad => exact absurd rfl hfb.1
          | stuck => exact absurd rfl hfb.2
          | fail =>
            dsimp only
            split
            · exact agree_refl (by simp)
            · exact ih _ _ hle
          | ok c =>
            dsimp only
            split
            · exact agree_refl (by simp)
            · exact ih _ _ hle
        · rw [h3]
          cases found with
          | bad => exact absurd rfl hfb.1
          | stuck => exact absurd rfl hfb.2
          | fail => exact agree_fail _
          | ok c => exact agree_fail _

theorem openAiff_agree (b : List UInt8) (fuel : Nat) :
    Agree (openAiff (mem b) fuel) (openAiff (file b) fuel) := by
  unfold openAiff
  rcases readOne_agree b (pos := 0) 4 (Nat.zero_le _) with h | ⟨he, hnb⟩
  · omega
  · rw [← he]
    cases h1 : readOne (mem b) 0 4 with
    | bad => exact absurd h1 hnb
    | stuck => exact agree_refl (by simp)
    | fail => exact agree_refl (by simp)
    | ok r =>
      obtain ⟨b1, p1⟩ := r
      dsimp only
      have hp1 : p1 ≤ b.length := (readOne_ok h1).2.1
      split
      · exact agree_refl (by simp)
      · rcases readOne_agree b 4 hp1 with h | ⟨he2, hnb2⟩
        · omega
        · rw [← he2]
          cases h2 : readOne (mem b) p1 4 with
          | bad => exact absurd h2 hnb2
          | stuck => exact agree_refl (by simp)
          | fail => exact agree_refl (by simp)
          | ok r =>
            obtain ⟨b2, p2⟩ := r
            dsimp only
            have hp2 : p2 ≤ b.length := (readOne_ok h2).2.1
            rcases readOne_agree b 4 hp2 with h | ⟨he3, hnb3⟩
            · omega
            · rw [← he3]
              cases h3 : readOne (mem b) p2 4 with
              | bad => exact absurd h3 hnb3
              | stuck => exact agree_refl (by simp)
              | fail => exact agree_refl (by simp)
              | ok r =>
                obtain ⟨b3, p3⟩ := r
                dsimp only
                split
                · exact agree_refl (by simp)
                · exact walk_agree b _ fuel p3 [] (readOne_ok h3).2.1

theorem agree_map {α β : Type} {m f : Res α} (g : α → β) : Agree m f →
    Agree (m.map g) (f.map g) := by
  intro h
  cases m with
  | ok a =>
    rw [h.1 a rfl]
    exact agree_refl (by simp [Res.map])
  | fail => exact agree_fail _
  | bad =>
    rw [h.2 rfl]
    exact ⟨fun x hx => (by cases hx), fun _ => rfl⟩
  | stuck => exact ⟨fun x hx => (by cases hx), fun hx => (by cases hx)⟩

/-- **C45.** If a sample in memory can be opened, the same file on disk can, with the same chunks. -/
theorem memory_agrees_with_file (b : List UInt8) (fuel : Nat) (r : ChunkType × List Chunk)
    (h : openReader (mem b) fuel = .ok r) : openReader (file b) fuel = .ok r := by
  have hag : Agree (openReader (mem b) fuel) (openReader (file b) fuel) := by
    unfold openReader
    by_cases hb : b = []
    · rw [if_pos ⟨rfl, hb⟩]
      exact agree_fail _
    · rw [if_neg (show ¬ ((mem b).kind = .memory ∧ (mem b).bytes = []) from fun h => hb h.2),
        if_neg (show ¬ ((file b).kind = .memory ∧ (file b).bytes = []) from fun h => by cases h.1)]
      dsimp only [mem, file]
      split
      · refine agree_map (fun cs => (ChunkType.riff, cs)) ?_
        unfold openFlac
        rcases seek_agree b 4 with ⟨h3, hle, h4⟩ | ⟨h3, h4⟩
        · rw [show seek { kind := .memory, bytes := b } 4 = _ from h3,
            show seek { kind := .file, bytes := b } 4 = _ from h4]
          exact walkFlac_agree b fuel 4 [] hle
        · rw [show seek { kind := .memory, bytes := b } 4 = _ from h3]
          exact agree_fail _
      · split
        · refine agree_map (fun cs => (ChunkType.riff, cs)) ?_
          unfold openRiff
          rcases seek_agree b 12 with ⟨h3, hle, h4⟩ | ⟨h3, h4⟩
          · rw [show seek { kind := .memory, bytes := b } 12 = _ from h3,
              show seek { kind := .file, bytes := b } 12 = _ from h4]
            exact walk_agree b u32le fuel 12 [] hle
          · rw [show seek { kind := .memory, bytes := b } 12 = _ from h3]
            exact agree_fail _
        · split
          · exact agree_map (fun cs => (ChunkType.aiff, cs)) (openAiff_agree b fuel)
          · exact agree_refl (by simp)
  exact hag.1 r h

/-- A WAV file whose last chunk has an odd size and no pad byte. -/
def unpadded : List UInt8 :=
  ascii "RIFF" ++ [17, 0, 0, 0] ++ ascii "WAVE" ++ ascii "data" ++ [1, 0, 0, 0] ++ [7]

/-- The converse fails: a file that ends within its last chunk — even if only the pad byte is
missing — is read from disk but refused from memory, with all its chunks. -/
theorem memory_agrees_with_file_violated :
    openReader (file unpadded) (enough (file unpadded)) =
      .ok (.riff, [{ offset := 20, id := ascii "data", length := 1 }]) ∧
    openReader (mem unpadded) (enough (mem unpadded)) = .fail := by decide +kernel

theorem readMarkers_agree (b : List UInt8) (left pos : Nat) (acc : Markers) (hp : pos ≤ b.length) :
    Agree (readMarkers (mem b) left pos acc) (readMarkers (file b) left pos acc) := by
  induction left generalizing pos acc with
  | zero => exact agree_refl (by simp [readMarkers])
  | succ left ih =>
    simp only [readMarkers]
    rcases readOne_agree b 2 hp with h | ⟨he, hnb⟩
    · omega
    · rw [← he]
      cases h1 : readOne (mem b) pos 2 with
      | bad => exact absurd h1 hnb
      | stuck => exact absurd h1 (readOne_not_stuck _ _ _)
      | fail => exact agree_refl (by simp)
      | ok r =>
        obtain ⟨b1, p1⟩ := r
        dsimp only
        have hp1 : p1 ≤ b.length := (readOne_ok h1).2.1
        rcases readOne_agree b 4 hp1 with h | ⟨he2, hnb2⟩
        · omega
        · rw [← he2]
          cases h2 : readOne (mem b) p1 4 with
          | bad => exact absurd h2 hnb2
          | stuck => exact absurd h2 (readOne_not_stuck _ _ _)
          | fail => exact agree_refl (by simp)
          | ok r =>
            obtain ⟨b2, p2⟩ := r
            dsimp only
            have hp2 : p2 ≤ b.length := (readOne_ok h2).2.1
            rcases readOne_agree b 1 hp2 with h | ⟨he3, hnb3⟩
            · omega
            · rw [← he3]
              cases h3 : readOne (mem b) p2 1 with
              | bad => exact absurd h3 hnb3
              | stuck => exact absurd h3 (readOne_not_stuck _ _ _)
              | fail => exact agree_refl (by simp)
              | ok r =>
                obtain ⟨b3, p3⟩ := r
                dsimp only
                have hp3 : p3 ≤ b.length := (readOne_ok h3).2.1
                rcases readOne_agree b (b3.getD 0 0).toNat hp3 with ⟨hb, hf, _⟩ | ⟨he4, hnb4⟩
                · rw [hb, hf]
                  exact ⟨fun x hx => (by cases hx), fun _ => rfl⟩
                · rw [← he4]
                  cases h4 : readOne (mem b) p3 (b3.getD 0 0).toNat with
                  | bad => exact absurd h4 hnb4
                  | stuck => exact absurd h4 (readOne_not_stuck _ _ _)
                  | fail => exact agree_refl (by simp)
                  | ok r =>
                    obtain ⟨b4, p4⟩ := r
                    dsimp only
                    have hp4 : p4 ≤ b.length := (readOne_ok h4).2.1
                    split
                    · rcases seek_agree b (p4 + 1) with ⟨h5, hle, h6⟩ | ⟨h5, h6⟩
                      · rw [h5, h6]
                        exact ih _ _ hle
                      · rw [h5]
                        exact agree_fail _
                    · exact ih _ _ hp4

theorem markersOf_agree (b : List UInt8) (cs : List Chunk) :
    Agree (markersOf (mem b) cs) (markersOf (file b) cs) := by
  unfold markersOf
  split
  · exact agree_refl (by simp)
  · rename_i c _
    rcases seek_agree b c.offset with ⟨h3, hle, h4⟩ | ⟨h3, h4⟩
    · rw [h3, h4]
      dsimp only
      rcases readOne_agree b 2 hle with h | ⟨he, hnb⟩
      · omega
      · rw [← he]
        cases h1 : readOne (mem b) c.offset 2 with
        | bad => exact absurd h1 hnb
        | stuck => exact absurd h1 (readOne_not_stuck _ _ _)
        | fail => exact agree_refl (by simp)
        | ok r =>
          obtain ⟨b1, p1⟩ := r
          exact readMarkers_agree b _ p1 [] (readOne_ok h1).2.1
    · rw [h3]
      exact agree_fail _

theorem readRiffData_agree (b : List UInt8) (c : Chunk) (n : Nat) :
    readRiffData (mem b) c n = readRiffData (file b) c n := by
  unfold readRiffData
  dsimp only
  rcases seek_agree b c.offset with ⟨h3, hle, h4⟩ | ⟨h3, h4⟩
  · rw [h3, h4]
    exact if_neg (show ¬ b.length < c.offset by omega)
  · rw [h3, h4]
    have : ¬ c.offset ≤ b.length := by
      intro hle
      have h5 : seek (mem b) c.offset = .ok c.offset := if_pos hle
      rw [h3] at h5
      cases h5
    simp only [readUpTo, file, slice]
    rw [List.drop_eq_nil_of_le (by omega), List.take_nil]

/-- **C45 (partial).** Extracting the loops of an AIFF sample is memory-safe for files; for a sample
in memory it can go wrong only where the same file would report failure: at a marker with an empty
name (`aiff_extraction_violated`). -/
theorem aiff_extraction_partial (b : List UInt8) (t : ChunkType) (cs : List Chunk) :
    extractAiff (file b) t cs ≠ .bad ∧ Agree (extractAiff (mem b) t cs) (extractAiff (file b) t cs) := by
  have hfile : ∀ (left pos : Nat) (acc : Markers), readMarkers (file b) left pos acc ≠ .bad := by
    intro left
    induction left with
    | zero => intro pos acc; simp [readMarkers]
    | succ left ih =>
      intro pos acc
      have nb : ∀ p n, readOne (file b) p n ≠ .bad := by
        intro p n h
        have := (readOne_bad h).1
        cases this
      simp only [readMarkers]
      repeat' split
      all_goals first
        | exact ih _ _
        | (simp; done)
        | (rename_i h; exact absurd h (nb _ _))
        | (rename_i h; exact absurd h (seek_not_bad _ _))
  constructor
  · unfold extractAiff
    split
    · simp
    · split
      · simp
      · rename_i c _
        obtain ⟨d, hd, _⟩ := readRiffData_total (file b) c 20
        rw [hd]
        dsimp only
        split
        · simp
        · have : markersOf (file b) cs ≠ .bad := by
            unfold markersOf
            split
            · simp
            · split
              · split
                · exact hfile _ _ _
                · simp
                · rename_i h
                  have := (readOne_bad h).1
                  cases this
                · simp
              · simp
              · rename_i h; exact absurd h (seek_not_bad _ _)
              · simp
          cases hm : markersOf (file b) cs <;> simp_all [Res.map]
  · unfold extractAiff
    split
    · exact agree_refl (by simp)
    · split
      · exact agree_refl (by simp)
      · rename_i c _
        rw [readRiffData_agree]
        obtain ⟨d, hd, _⟩ := readRiffData_total (file b) c 20
        rw [hd]
        dsimp only
        split
        · exact agree_refl (by simp)
        · exact agree_map (fun m => instInstrument d m) (markersOf_agree b cs)

/-- An AIFF file whose only marker has no name. -/
def unnamedMarker : List UInt8 :=
  ascii "FORM" ++ [0, 0, 0, 0] ++ ascii "AIFF" ++
  ascii "INST" ++ [0, 0, 0, 20] ++ [60, 0, 0, 127, 0, 127, 0, 0, 0, 1, 0, 1, 0, 1, 0, 0, 0, 0, 0, 0] ++
  ascii "MARK" ++ [0, 0, 0, 10] ++ [0, 1, 0, 1, 0, 0, 0, 5, 0, 0]

/-- A marker with an empty name (which is what a marker without a label looks like) makes the memory
source divide by zero, and the file source drop the loop. -/
theorem aiff_extraction_violated :
    (∃ cs, openReader (mem unnamedMarker) (enough (mem unnamedMarker)) = .ok (.aiff, cs) ∧
      extractAiff (mem unnamedMarker) .aiff cs = .bad ∧
      extractAiff (file unnamedMarker) .aiff cs = .fail) := by
  refine ⟨[{ offset := 20, id := ascii "INST", length := 20 },
    { offset := 48, id := ascii "MARK", length := 10 }], ?_⟩
  decide +kernel

end Verif.Metadata
