import Verif.Tuning.Scl

/-!
C79: microtuning. After any calls, the frequency of every key is the one that the scale loaded last, the root key set last and the
reference frequency set last say.
-/
namespace Verif.Tuning

/-! ### What was set last -/

/-- The scale that a text gives: equal temperament if it is not a Scala file with tones. -/
def scaleOf (text : Text) : Scale :=
  match readSCL text with
  | .ok s => if s.tones = [] then evenTemperament else s
  | _ => evenTemperament

/-- A Scala file with tones. -/
def accepted (text : Text) : Bool :=
  match readSCL text with
  | .ok s => s.tones ≠ []
  | _ => false

def lastScale : List Call → Scale → Scale
  | [], s => s
  | .loadFile t _ :: cs, _ => lastScale cs (scaleOf t)
  | .loadString t :: cs, _ => lastScale cs (scaleOf t)
  | _ :: cs, s => lastScale cs s

def lastRoot : List Call → Int → Int
  | [], k => k
  | .setRootKey k :: cs, _ => lastRoot cs (max 0 k)
  | _ :: cs, k => lastRoot cs k

def lastFrequency : List Call → ℚ → ℚ
  | [], f => f
  | .setFrequency f :: cs, _ => lastFrequency cs (max 0 f)
  | _ :: cs, f => lastFrequency cs f

/-- A call that C++ defines: the root key plus 256 fits an `int`, and so do the numbers of the file. -/
def Call.Defined : Call → Prop
  | .loadFile t _ => readSCL t ≠ .undef
  | .loadString t => readSCL t ≠ .undef
  | .setRootKey k => k ≤ 2147483391
  | _ => True

/-! ### Invariant -/

/-- The tables belong to the scale and parameters that the object shows. -/
structure Consistent (st : State) : Prop where
  tuning : st.tuning = tables st.tuning.scale st.rootKey st.tuningFrequency
  keys : st.keys = keysOf st.tuning
  tones : st.tuning.scale.tones.length ≠ 0
  root : 256 + st.rootKey ≤ 2147483647

theorem initial_consistent : Consistent initial := by
  refine ⟨rfl, rfl, ?_, ?_⟩
  · simp [initial, tables, evenTemperament]
  · simp [initial]

/-- One call from a consistent state. -/
theorem call_ok (st : State) (c : Call) (hi : Consistent st) (hc : c.Defined) :
    ∃ st' b, call st c = .ok (st', b) ∧ Consistent st' ∧ st'.tuning.scale = lastScale [c] st.tuning.scale ∧
      st'.rootKey = lastRoot [c] st.rootKey ∧ st'.tuningFrequency = lastFrequency [c] st.tuningFrequency ∧
      (match c with
        | .loadFile t m => b = accepted t ∧ st'.scalaFile = b ∧ (b = true → st'.modificationTime = m)
        | .loadString t => b = accepted t ∧ st'.scalaFile = false
        | .shouldReload m => b = (st.scalaFile && decide (m > st.modificationTime)) ∧ st'.scalaFile = st.scalaFile ∧
            st'.modificationTime = if b then m else st.modificationTime
        | _ => b = false ∧ st'.scalaFile = st.scalaFile ∧ st'.modificationTime = st.modificationTime) := by
  have hroot : st.tuning.root = st.rootKey := by rw [hi.tuning]; rfl
  have hfreq : st.tuning.freq = st.tuningFrequency := by rw [hi.tuning]; rfl
  have hE : evenTemperament.tones.length ≠ 0 := by simp [evenTemperament]
  have hu : ∀ s file, s.tones.length ≠ 0 → ∃ st', updateScale st s file = .ok st' ∧ Consistent st' ∧
      st'.tuning.scale = s ∧ st'.rootKey = st.rootKey ∧ st'.tuningFrequency = st.tuningFrequency ∧
      st'.scalaFile = file.isSome ∧ (∀ m, file = some m → st'.modificationTime = m) := by
    intro s file hs
    rw [updateScale, construct, if_neg hs, if_neg (by rw [hroot]; have := hi.root; omega)]
    cases file with
    | none =>
      refine ⟨_, rfl, ⟨?_, rfl, hs, hi.root⟩, rfl, rfl, rfl, rfl, by simp⟩
      simp [tables, hroot, hfreq]
    | some m =>
      refine ⟨_, rfl, ⟨?_, rfl, hs, hi.root⟩, rfl, rfl, rfl, rfl, by simp⟩
      simp [tables, hroot, hfreq]
  have hl : ∀ t file, readSCL t ≠ .undef → ∃ st' b, load st t file = .ok (st', b) ∧ Consistent st' ∧
      st'.tuning.scale = scaleOf t ∧ st'.rootKey = st.rootKey ∧ st'.tuningFrequency = st.tuningFrequency ∧
      b = accepted t ∧ st'.scalaFile = (b && file.isSome) ∧ (b = true → ∀ m, file = some m → st'.modificationTime = m) := by
    intro t file ht
    cases hr : readSCL t with
    | undef => exact absurd hr ht
    | throws =>
      obtain ⟨st', e, h1, h2, h3, h4, h5, h6⟩ := hu evenTemperament none hE
      refine ⟨st', false, ?_, h1, ?_, h3, h4, ?_, by simpa using h5, by simp⟩
      · simp only [load, hr, e]
      · rw [h2, scaleOf, hr]
      · rw [accepted, hr]
    | ok s =>
      by_cases h0 : s.tones.length = 0
      · obtain ⟨st', e, h1, h2, h3, h4, h5, h6⟩ := hu evenTemperament none hE
        refine ⟨st', false, ?_, h1, ?_, h3, h4, ?_, by simpa using h5, by simp⟩
        · simp only [load, hr, e, h0, if_true]
        · rw [h2, scaleOf, hr]
          simp [List.length_eq_zero_iff.1 h0]
        · rw [accepted, hr]
          simp [List.length_eq_zero_iff.1 h0]
      · obtain ⟨st', e, h1, h2, h3, h4, h5, h6⟩ := hu s file h0
        have h0' : s.tones ≠ [] := by intro e; rw [e] at h0; simp at h0
        refine ⟨st', true, ?_, h1, ?_, h3, h4, ?_, by simpa using h5, fun _ => h6⟩
        · simp only [load, hr, e, h0, if_false]
        · rw [h2, scaleOf, hr]
          simp [h0']
        · rw [accepted, hr]
          simp [h0']
  cases c with
  | loadFile t m =>
    obtain ⟨st', b, h1, h2, h3, h4, h5, h6, h7, h8⟩ := hl t (some m) hc
    exact ⟨st', b, h1, h2, h3, h4, h5, h6, by simpa using h7, fun hb => h8 hb m rfl⟩
  | loadString t =>
    obtain ⟨st', b, h1, h2, h3, h4, h5, h6, h7, h8⟩ := hl t none hc
    exact ⟨st', b, h1, h2, h3, h4, h5, h6, by simpa using h7⟩
  | setRootKey k =>
    have hk : k ≤ 2147483391 := hc
    by_cases h : st.rootKey = max 0 k
    · exact ⟨st, false, by simp only [call, updateRootKey, h, if_true], hi, rfl, h, rfl, rfl, rfl, rfl⟩
    · refine ⟨{ st with tuning := tables st.tuning.scale (max 0 k) st.tuningFrequency, rootKey := max 0 k, keys := keysOf (tables st.tuning.scale (max 0 k) st.tuningFrequency) }, false, ?_,
        ⟨rfl, rfl, hi.tones, ?_⟩, rfl, rfl, rfl, rfl, rfl, rfl⟩
      · simp only [call, updateRootKey, h, if_false]
        rw [construct, if_neg hi.tones, if_neg (by omega)]
      · show 256 + max 0 k ≤ 2147483647; omega
  | setFrequency f =>
    by_cases h : st.tuningFrequency = max 0 f
    · exact ⟨st, false, by simp only [call, updateTuningFrequency, h, if_true], hi, rfl, rfl, h, rfl, rfl, rfl⟩
    · refine ⟨{ st with tuning := tables st.tuning.scale st.rootKey (max 0 f), tuningFrequency := max 0 f, keys := keysOf (tables st.tuning.scale st.rootKey (max 0 f)) }, false, ?_,
        ⟨rfl, rfl, hi.tones, hi.root⟩, rfl, rfl, rfl, rfl, rfl, rfl⟩
      simp only [call, updateTuningFrequency, h, if_false]
      rw [construct, if_neg hi.tones, if_neg (by have := hi.root; omega)]
  | shouldReload now =>
    refine ⟨(shouldReload st now).1, (shouldReload st now).2, rfl, ?_⟩
    rw [shouldReload]
    by_cases h1 : st.scalaFile = true
    · by_cases h2 : now > st.modificationTime
      · simp only [h1, Bool.not_true, Bool.false_eq_true, if_false, h2, if_true, decide_true, Bool.and_true]
        exact ⟨⟨hi.tuning, hi.keys, hi.tones, hi.root⟩, rfl, rfl, rfl, trivial, trivial, trivial⟩
      · simp only [h1, Bool.not_true, Bool.false_eq_true, if_false, h2, decide_false, Bool.and_false]
        exact ⟨hi, rfl, rfl, rfl, trivial, trivial, trivial⟩
    · have h1' : st.scalaFile = false := by simpa using h1
      simp only [h1', Bool.not_false, if_true, Bool.false_and, Bool.false_eq_true, if_false]
      exact ⟨hi, rfl, rfl, rfl, trivial, trivial, trivial⟩

/-! ### Any calls -/

theorem lastScale_cons (c : Call) (cs : List Call) (s : Scale) : lastScale (c :: cs) s = lastScale cs (lastScale [c] s) := by
  cases c <;> rfl

theorem lastRoot_cons (c : Call) (cs : List Call) (k : Int) : lastRoot (c :: cs) k = lastRoot cs (lastRoot [c] k) := by
  cases c <;> rfl

theorem lastFrequency_cons (c : Call) (cs : List Call) (f : ℚ) :
    lastFrequency (c :: cs) f = lastFrequency cs (lastFrequency [c] f) := by
  cases c <;> rfl

theorem run_ok (cs : List Call) (st : State) (hi : Consistent st) (hd : ∀ c ∈ cs, c.Defined) :
    ∃ st' bs, run st cs = .ok (st', bs) ∧ bs.length = cs.length ∧ Consistent st' ∧
      st'.tuning.scale = lastScale cs st.tuning.scale ∧
      st'.rootKey = lastRoot cs st.rootKey ∧ st'.tuningFrequency = lastFrequency cs st.tuningFrequency := by
  induction cs generalizing st with
  | nil => exact ⟨st, [], rfl, rfl, hi, rfl, rfl, rfl⟩
  | cons c cs ih =>
    obtain ⟨s1, b, e1, i1, a1, a2, a3, -⟩ := call_ok st c hi (hd c (List.mem_cons_self ..))
    obtain ⟨s2, bs, e2, hl, i2, b1, b2, b3⟩ := ih s1 i1 fun x hx => hd x (List.mem_cons_of_mem _ hx)
    refine ⟨s2, b :: bs, by simp only [run, e1, e2], by simp [hl], i2, ?_, ?_, ?_⟩
    · rw [b1, a1, ← lastScale_cons]
    · rw [b2, a2, ← lastRoot_cons]
    · rw [b3, a3, ← lastFrequency_cons]

theorem midi0_pos : 0 < midi0 := by unfold midi0; norm_num

theorem frequency_eq (s : Scale) (root : ℤ) (f : ℚ) (hf : 0 < f) (d : ℤ → ℝ) (hd : IsScale s.tones d)
    (hs : ∀ t ∈ s.tones, t.Sound) (h0 : s.tones.length ≠ 0) (key : ℤ) :
    (tables s root f).frequency key =
      .num (f * 2 ^ (d (max (-256) (min key 255) - root) - d (69 - root))) := by
  have hk : ((index key).val : ℤ) - 256 = max (-256) (min key 255) := by
    simp only [index]; omega
  have hf' : (0 : ℝ) < f := by exact_mod_cast hf
  have hp : (0 : ℝ) < (f : ℝ) / midi0 := div_pos hf' midi0_pos
  have hk' : (((index key).val : ℕ) : ℤ) - 256 - root = max (-256) (min key 255) - root := by rw [hk]
  simp only [Tuned.frequency, tables, entry_eq s d hd hs h0, pitchMod, Val.log2, hp, if_true, Val.sub, Val.neg, Val.add,
    Val.exp2, Val.scale, hk']
  congr 1
  generalize d (max (-256) (min key 255) - root) = a
  generalize d (69 - root) = b
  rw [show 1 + a - b + (Real.logb 2 ((f : ℝ) / midi0) + -1) = Real.logb 2 ((f : ℝ) / midi0) + (a - b) by ring,
    Real.rpow_add (by norm_num), Real.rpow_logb (by norm_num) (by norm_num) hp]
  have := midi0_pos.ne'
  field_simp

theorem fractional_eq (s : Scale) (root : ℤ) (f : ℚ) (hf : 0 < f) (d : ℤ → ℝ) (hd : IsScale s.tones d)
    (hs : ∀ t ∈ s.tones, t.Sound) (h0 : s.tones.length ≠ 0) (key : ℤ) :
    keysOf (tables s root f) (index key) =
      .num (69 + 12 * (Real.logb 2 (f / 440) + (d (max (-256) (min key 255) - root) - d (69 - root)))) := by
  have hk : ((index key).val : ℤ) - 256 = max (-256) (min key 255) := by
    simp only [index]; omega
  have hf' : (0 : ℝ) < f := by exact_mod_cast hf
  simp only [keysOf, frequency_eq s root f hf d hd hs h0]
  rw [hk, show max (-256) (min (max (-256) (min key 255)) 255) = max (-256) (min key 255) by omega]
  generalize d (max (-256) (min key 255) - root) - d (69 - root) = a
  have hp : (0 : ℝ) < 2 ^ a := by positivity
  have hq : (0 : ℝ) < 1 / 440 * (f * 2 ^ a) := by positivity
  simp only [Val.scale, Val.log2, hq, if_true, Val.add]
  congr 1
  rw [show 1 / 440 * ((f : ℝ) * 2 ^ a) = (f / 440) * 2 ^ a by ring, Real.logb_mul (by positivity) (by positivity),
    Real.logb_rpow (by norm_num) (by norm_num)]
  ring

/-! ### Theorems -/

/-- After any calls that C++ defines: the object reports the root key and the frequency set last (none below 0), and with a
frequency above 0 and sound tones the frequency of every key is the reference frequency moved by the interval that the scale
puts between key 69 and that key, the root key being degree 0 of the scale. Keys outside of -256 to 255 are moved into it. The key
number in equal temperament that the voices use denotes the same frequency. -/
theorem tuning_of_calls (cs : List Call) (hd : ∀ c ∈ cs, c.Defined) :
    ∃ st bs, run initial cs = .ok (st, bs) ∧ st.rootKey = lastRoot cs 60 ∧ st.tuningFrequency = lastFrequency cs 440 ∧
      (0 < lastFrequency cs 440 → (∀ t ∈ (lastScale cs evenTemperament).tones, t.Sound) →
        ∀ d, IsScale (lastScale cs evenTemperament).tones d → ∀ key : ℤ,
          st.frequencyOfKey key = .num (lastFrequency cs 440 *
            2 ^ (d (max (-256) (min key 255) - lastRoot cs 60) - d (69 - lastRoot cs 60))) ∧
          st.keyFractional key = .num (69 + 12 * Real.logb 2 (lastFrequency cs 440 *
            2 ^ (d (max (-256) (min key 255) - lastRoot cs 60) - d (69 - lastRoot cs 60)) / 440))) := by
  obtain ⟨st, bs, e, -, hi, h1, h2, h3⟩ := run_ok cs initial initial_consistent hd
  refine ⟨st, bs, e, h2, h3, ?_⟩
  intro hf hs d hds key
  have h1' : st.tuning.scale = lastScale cs evenTemperament := h1
  have h2' : st.rootKey = lastRoot cs 60 := h2
  have h3' : st.tuningFrequency = lastFrequency cs 440 := h3
  have hn := hi.tones
  rw [State.frequencyOfKey, State.keyFractional, hi.keys, hi.tuning]
  rw [h1'] at hn ⊢
  rw [h2', h3', frequency_eq _ _ _ hf d hds hs hn, fractional_eq _ _ _ hf d hds hs hn]
  refine ⟨rfl, ?_⟩
  congr 1
  have hf' : (0 : ℝ) < ((lastFrequency cs 440 : ℚ) : ℝ) := by exact_mod_cast hf
  rw [mul_div_right_comm, Real.logb_mul (by positivity) (by positivity), Real.logb_rpow (by norm_num) (by norm_num)]

/-- Nothing that is called ends with an exception. -/
theorem never_throws (cs : List Call) (st : State) (hi : Consistent st) : run st cs ≠ .throws := by
  induction cs generalizing st with
  | nil => intro h; cases h
  | cons c cs ih =>
    by_cases hc : c.Defined
    · obtain ⟨s1, b, e1, i1, -⟩ := call_ok st c hi hc
      have := ih s1 i1
      intro h
      simp only [run, e1] at h
      split at h
      · cases h
      · exact this (by assumption)
      · cases h
    · have : call st c = .undef := by
        cases c with
        | loadFile t m =>
          have : readSCL t = .undef := by simpa [Call.Defined] using hc
          simp only [call, load, this]
        | loadString t =>
          have : readSCL t = .undef := by simpa [Call.Defined] using hc
          simp only [call, load, this]
        | setRootKey k =>
          have hk : ¬k ≤ 2147483391 := hc
          have := hi.root
          simp only [call, updateRootKey]
          rw [if_neg (by omega), construct, if_neg hi.tones, if_pos (by omega)]
        | setFrequency f => simp [Call.Defined] at hc
        | shouldReload m => simp [Call.Defined] at hc
      intro h
      simp only [run, this] at h
      cases h

/-- Every scale has such a pitch function, so that the claim above is not empty; it is the only one. -/
theorem scale_exists (s : List Tone) (h0 : s ≠ []) : ∃! d, IsScale s d := by
  have hn : 0 < s.length := List.length_pos_iff.2 h0
  refine ⟨fun j => ((j / s.length : ℤ) : ℝ) * (s.getLast h0).octaves +
    if j % s.length = 0 then 0 else (s.getD (j % s.length - 1).toNat (.cents 0)).octaves, ?_, ?_⟩
  · have hlen : ∀ i t, s[i]? = some t → i < s.length := fun i t h => (List.getElem?_eq_some_iff.1 h).1
    refine ⟨by simp, ?_, ?_⟩
    · intro i t ht
      have hi := hlen i t ht
      by_cases hl : i + 1 = s.length
      · have e1 : ((i : ℤ) + 1) / s.length = 1 := by
          rw [show (i : ℤ) + 1 = s.length by omega]; exact Int.ediv_self (by omega)
        have e2 : ((i : ℤ) + 1) % s.length = 0 := by
          rw [show (i : ℤ) + 1 = s.length by omega]; exact Int.emod_self
        simp only [e1, e2, if_true]
        rw [List.getLast_eq_getElem]
        have : s[s.length - 1] = t := by
          have h := (List.getElem?_eq_some_iff.1 ht).2
          rw [← h]; congr 1; omega
        rw [this]; simp
      · have e1 : ((i : ℤ) + 1) / s.length = 0 := Int.ediv_eq_zero_of_lt (by omega) (by omega)
        have e2 : ((i : ℤ) + 1) % s.length = i + 1 := Int.emod_eq_of_lt (by omega) (by omega)
        simp only [e1, e2]
        rw [if_neg (by omega)]
        simp [List.getD_eq_getElem?_getD, ht]
    · intro j
      have e1 : (j + s.length) / (s.length : ℤ) = j / s.length + 1 := Int.add_ediv_of_dvd_right (by simp) |>.trans (by
        rw [Int.ediv_self (by omega)])
      have e2 : (j + s.length) % (s.length : ℤ) = j % s.length := by simp
      have e3 : (s.length : ℤ) / s.length = 1 := Int.ediv_self (by omega)
      simp only [e1, e2, e3, Int.emod_self, if_true]
      push_cast; ring
  · intro d hd
    have last : d s.length = (s.getLast h0).octaves := by
      have := hd.tone (s.length - 1) (s.getLast h0) (by
        rw [List.getLast_eq_getElem, List.getElem?_eq_getElem])
      rw [← this]; congr 1; omega
    funext j
    have := shift s d hd (j % s.length) (j / s.length)
    rw [show j % s.length + j / s.length * s.length = j by
      rw [mul_comm]; exact Int.emod_add_mul_ediv j s.length] at this
    rw [this, last, add_comm]
    congr 1
    have hm := Int.emod_nonneg j (b := (s.length : ℤ)) (by omega)
    have hm2 := Int.emod_lt_of_pos j (b := (s.length : ℤ)) (by omega)
    by_cases hz : j % s.length = 0
    · rw [if_pos hz, hz, hd.root]
    · rw [if_neg hz]
      have hi : (j % s.length - 1).toNat < s.length := by omega
      have := hd.tone (j % s.length - 1).toNat _ (List.getElem?_eq_getElem hi)
      rw [List.getD_eq_getElem?_getD, List.getElem?_eq_getElem hi, Option.getD_some, ← this]
      congr 1; omega

/-- The equal temperament in octaves. -/
theorem even_isScale : IsScale evenTemperament.tones (fun j => (j : ℝ) / 12) := by
  refine ⟨by simp, ?_, ?_⟩
  · intro i t h
    simp only [evenTemperament, List.getElem?_map, Option.map_eq_some_iff] at h
    obtain ⟨a, ha, rfl⟩ := h
    have ha' := List.getElem?_eq_some_iff.1 ha
    obtain ⟨h1, h2⟩ := ha'
    have h2' : i = a := by simpa using h2
    subst h2'
    simp only [Tone.octaves]
    push_cast
    ring
  · intro j
    simp only [evenTemperament, List.length_map]
    push_cast; ring

theorem even_sound : ∀ t ∈ evenTemperament.tones, t.Sound := by
  intro t h
  simp only [evenTemperament, List.mem_map] at h
  obtain ⟨a, -, rfl⟩ := h
  trivial

/-- Unless a scale is loaded, key `k` is the equal temperament key `k` moved by the reference frequency, whatever the root key is:
the engine plays as if there were no tuning. -/
theorem tuning_default (cs : List Call) (hd : ∀ c ∈ cs, c.Defined) (hl : lastScale cs evenTemperament = evenTemperament)
    (hf : 0 < lastFrequency cs 440) (st : State) (bs : List Bool) (hr : run initial cs = .ok (st, bs)) (key : ℤ)
    (h1 : -256 ≤ key) (h2 : key ≤ 255) :
    st.keyFractional key = .num (key + 12 * Real.logb 2 (lastFrequency cs 440 / 440)) := by
  obtain ⟨st', bs', e, -, -, h⟩ := tuning_of_calls cs hd
  rw [e] at hr
  cases hr
  rw [hl] at h
  rw [(h hf even_sound _ even_isScale key).2]
  have hf' : (0 : ℝ) < ((lastFrequency cs 440 : ℚ) : ℝ) := by exact_mod_cast hf
  congr 1
  rw [mul_div_right_comm, Real.logb_mul (by positivity) (by positivity), Real.logb_rpow (by norm_num) (by norm_num),
    show max (-256) (min key 255) = key by omega]
  push_cast; ring

/-- Whatever the scale and the root key are, key 69 has the reference frequency. -/
theorem tuning_reference (cs : List Call) (hd : ∀ c ∈ cs, c.Defined)
    (hs : ∀ t ∈ (lastScale cs evenTemperament).tones, t.Sound) (hf : 0 < lastFrequency cs 440) (st : State) (bs : List Bool)
    (hr : run initial cs = .ok (st, bs)) : st.frequencyOfKey 69 = .num (lastFrequency cs 440) := by
  obtain ⟨st2, bs2, e2, -, hi, i1, -, -⟩ := run_ok cs initial initial_consistent hd
  obtain ⟨st', bs', e, -, -, h⟩ := tuning_of_calls cs hd
  rw [e] at hr e2
  cases hr; cases e2
  have hne : (lastScale cs evenTemperament).tones ≠ [] := by
    have := hi.tones
    rw [i1] at this
    intro h0
    exact this (by rw [show initial.tuning.scale = evenTemperament from rfl, h0]; rfl)
  obtain ⟨d, hds, -⟩ := scale_exists _ hne
  rw [(h hf hs d hds 69).1]
  simp

/-- If the tones of a scale do not go down, higher keys are not lower. -/
theorem scale_monotone (s : List Tone) (d : ℤ → ℝ) (hd : IsScale s d) (h0 : s ≠ [])
    (hs : ∀ (i : Nat) (a b : Tone), s[i]? = some a → s[i + 1]? = some b → a.octaves ≤ b.octaves)
    (hfirst : ∀ t, s[0]? = some t → 0 ≤ t.octaves) : Monotone d := by
  have hn : 0 < s.length := List.length_pos_iff.2 h0
  refine monotone_int_of_le_succ fun j => ?_
  have e1 := shift s d hd (j % s.length) (j / s.length)
  have e2 := shift s d hd (j % s.length + 1) (j / s.length)
  have hj : j % s.length + j / s.length * s.length = j := by
    rw [mul_comm]; exact Int.emod_add_mul_ediv j s.length
  rw [hj] at e1
  rw [show j % s.length + 1 + j / s.length * s.length = j + 1 by omega] at e2
  rw [e1, e2]
  have hm := Int.emod_nonneg j (b := (s.length : ℤ)) (by omega)
  have hm2 := Int.emod_lt_of_pos j (b := (s.length : ℤ)) (by omega)
  obtain ⟨r, hr⟩ : ∃ r : Nat, j % s.length = r := ⟨(j % s.length).toNat, by omega⟩
  rw [hr] at hm2 ⊢
  have hrl : r < s.length := by omega
  have hb := hd.tone r _ (List.getElem?_eq_getElem hrl)
  have hstep : d r ≤ d (r + 1) := by
    rw [hb]
    cases r with
    | zero =>
      rw [Nat.cast_zero, hd.root]
      exact hfirst _ (List.getElem?_eq_getElem hrl)
    | succ r =>
      have hrl' : r < s.length := by omega
      have ha := hd.tone r _ (List.getElem?_eq_getElem hrl')
      rw [show ((r + 1 : ℕ) : ℤ) = r + 1 by simp, ha]
      exact hs r _ _ (List.getElem?_eq_getElem hrl') (List.getElem?_eq_getElem hrl)
  linarith

/-- With such a scale the frequencies of the keys do not go down, after any calls. -/
theorem tuning_monotone (cs : List Call) (hd : ∀ c ∈ cs, c.Defined)
    (hs : ∀ t ∈ (lastScale cs evenTemperament).tones, t.Sound) (hf : 0 < lastFrequency cs 440)
    (hup : ∀ (i : Nat) (a b : Tone), (lastScale cs evenTemperament).tones[i]? = some a →
      (lastScale cs evenTemperament).tones[i + 1]? = some b → a.octaves ≤ b.octaves)
    (hfirst : ∀ t, (lastScale cs evenTemperament).tones[0]? = some t → 0 ≤ t.octaves)
    (st : State) (bs : List Bool) (hr : run initial cs = .ok (st, bs)) (k1 k2 : ℤ) (hk : k1 ≤ k2) :
    ∃ f1 f2, st.frequencyOfKey k1 = .num f1 ∧ st.frequencyOfKey k2 = .num f2 ∧ 0 < f1 ∧ f1 ≤ f2 := by
  obtain ⟨st2, bs2, e2, -, hi, i1, -, -⟩ := run_ok cs initial initial_consistent hd
  obtain ⟨st', bs', e, -, -, h⟩ := tuning_of_calls cs hd
  rw [e] at hr e2
  cases hr; cases e2
  have hne : (lastScale cs evenTemperament).tones ≠ [] := by
    have := hi.tones
    rw [i1] at this
    intro h0
    exact this (by rw [show initial.tuning.scale = evenTemperament from rfl, h0]; rfl)
  obtain ⟨d, hds, -⟩ := scale_exists _ hne
  have hf' : (0 : ℝ) < ((lastFrequency cs 440 : ℚ) : ℝ) := by exact_mod_cast hf
  refine ⟨_, _, (h hf hs d hds k1).1, (h hf hs d hds k2).1, by positivity, ?_⟩
  refine mul_le_mul_of_nonneg_left ?_ hf'.le
  refine Real.rpow_le_rpow_of_exponent_le (by norm_num) ?_
  have := scale_monotone _ d hds hne hup hfirst (show max (-256) (min k1 255) - lastRoot cs 60 ≤
    max (-256) (min k2 255) - lastRoot cs 60 by omega)
  linarith

/-! ### Results of the calls -/

/-- The results that are due, given the time of the newest version seen of the file that is loaded (`none` if the scale does not
come from a file): loading says whether the text is a Scala file with tones, and the question whether to load again is answered
with yes if the file is newer than any version seen. -/
def answers : Option Int → List Call → List Bool
  | _, [] => []
  | _, .loadFile t m :: cs => accepted t :: answers (if accepted t then some m else none) cs
  | _, .loadString t :: cs => accepted t :: answers none cs
  | none, .shouldReload _ :: cs => false :: answers none cs
  | some t, .shouldReload m :: cs => decide (t < m) :: answers (some (max t m)) cs
  | f, .setRootKey _ :: cs => false :: answers f cs
  | f, .setFrequency _ :: cs => false :: answers f cs

theorem results_of (cs : List Call) (st : State) (hi : Consistent st) (hd : ∀ c ∈ cs, c.Defined) :
    ∃ st', run st cs = .ok (st', answers (if st.scalaFile then some st.modificationTime else none) cs) := by
  induction cs generalizing st with
  | nil => exact ⟨st, by simp [run, answers]⟩
  | cons c cs ih =>
    obtain ⟨s1, b, e1, i1, -, -, -, h⟩ := call_ok st c hi (hd c (List.mem_cons_self ..))
    obtain ⟨s2, e2⟩ := ih s1 i1 fun x hx => hd x (List.mem_cons_of_mem _ hx)
    refine ⟨s2, ?_⟩
    simp only [run, e1, e2]
    congr 2
    cases c with
    | loadFile t m =>
      obtain ⟨h1, h2, h3⟩ := h
      rw [answers, ← h1, h2]
      cases b with
      | true => rw [h3 rfl]
      | false => rfl
    | loadString t =>
      obtain ⟨h1, h2⟩ := h
      rw [answers, ← h1, h2]
      rfl
    | setRootKey k =>
      obtain ⟨h1, h2, h3⟩ := h
      rw [answers, h1, h2, h3]
    | setFrequency f =>
      obtain ⟨h1, h2, h3⟩ := h
      rw [answers, h1, h2, h3]
    | shouldReload m =>
      obtain ⟨h1, h2, h3⟩ := h
      rw [h2, h3, h1]
      cases st.scalaFile with
      | false => simp [answers]
      | true =>
        simp only [if_true, Bool.true_and, answers]
        congr 2
        by_cases hm : m > st.modificationTime
        · simp only [hm, decide_true, if_true]
          rw [max_eq_right (le_of_lt hm)]
        · simp only [hm, decide_false, Bool.false_eq_true, if_false]
          rw [max_eq_left (not_lt.1 hm)]

/-- After any calls that C++ defines, the results are those that are due. -/
theorem results_of_calls (cs : List Call) (hd : ∀ c ∈ cs, c.Defined) :
    ∃ st, run initial cs = .ok (st, answers none cs) :=
  results_of cs initial initial_consistent hd

/-! ### Where the code falls short -/

/-- A file with a negative ratio. -/
def negativeFile : Text := "bad\n1\n-3/2".toList

/-- A file that ends too early. -/
def shortFile : Text := "x\n2\n3/2".toList

/-- "-3/2" is taken for a tone, and the frequencies of the keys are then no numbers. -/
theorem negative_ratio_violated : ∃ text st, accepted text = true ∧ run initial [.loadString text] = .ok (st, [true]) ∧
    st.frequencyOfKey 60 = .nan := by
  have hr : readSCL negativeFile = .ok ⟨"bad".toList, [.ratio (-3) 2]⟩ := by decide +kernel
  have ha : accepted negativeFile = true := by rw [accepted, hr]; rfl
  have hd : ∀ c ∈ [Call.loadString negativeFile], c.Defined := by simp [Call.Defined, hr]
  obtain ⟨st, bs, e, -, hi, h1, h2, h3⟩ := run_ok _ initial initial_consistent hd
  obtain ⟨st', e'⟩ := results_of_calls _ hd
  rw [e] at e'
  cases e'
  refine ⟨negativeFile, st, ha, by rw [e]; simp [answers, ha], ?_⟩
  have hs : st.tuning.scale = ⟨"bad".toList, [.ratio (-3) 2]⟩ := by
    rw [h1]; simp only [lastScale, scaleOf, hr]; rfl
  have hf : floatAt ⟨"bad".toList, [.ratio (-3) 2]⟩ 0 = .nan := by
    simp only [floatAt, List.getD_cons_zero, Tone.floatValue, Val.log2]
    rw [if_neg (by norm_num), if_neg (by norm_num)]
    rfl
  have hk : ((index 60).val : ℤ) = 316 := by decide
  rw [State.frequencyOfKey, hi.tuning, hs]
  simp only [Tuned.frequency, tables, entry, tuningNote]
  rw [if_neg (by rw [hk]; omega)]
  have e1 : ∀ x : ℤ, x.tmod ((1 : ℕ) : ℤ) = 0 := by intro x; simp
  simp only [List.length_singleton, e1, lt_irrefl, if_false, Int.toNat_zero, hf]
  rfl

/-- The reference frequency may be set to 0: the key numbers of the voices are then no numbers. -/
theorem zero_frequency_violated : ∃ st, run initial [.setFrequency 0] = .ok (st, [false]) ∧ st.frequencyOfKey 60 = .num 0 ∧
    st.keyFractional 60 = .ninf := by
  have hd : ∀ c ∈ [Call.setFrequency 0], c.Defined := by simp [Call.Defined]
  obtain ⟨st, bs, e, -, hi, h1, h2, h3⟩ := run_ok _ initial initial_consistent hd
  obtain ⟨st', e'⟩ := results_of_calls _ hd
  rw [e] at e'
  cases e'
  refine ⟨st, e, ?_⟩
  have hs : st.tuning.scale = evenTemperament := h1
  have h3' : st.tuningFrequency = 0 := by rw [h3]; simp [lastFrequency]
  have hp : pitchMod 0 = .ninf := by
    simp [pitchMod, Val.log2, Val.sub, Val.neg, Val.add]
  have hk : ∀ key, (tables evenTemperament st.rootKey 0).frequency key = .num 0 := by
    intro key
    simp only [Tuned.frequency, tables, hp]
    rw [entry_eq evenTemperament _ even_isScale even_sound (by simp [evenTemperament])]
    simp [Val.add, Val.exp2, Val.scale]
  rw [State.frequencyOfKey, State.keyFractional, hi.keys, hi.tuning, hs, h3']
  refine ⟨hk 60, ?_⟩
  simp only [keysOf, hk]
  simp [Val.scale, Val.log2, Val.add]

/-- The largest root keys that the call takes are not defined. -/
theorem root_key_violated : run initial [.setRootKey 2147483647] = .undef := by
  simp only [run, call, updateRootKey]
  rw [if_neg (by simp [initial]), construct, if_neg (by simp [initial, tables, evenTemperament]), if_pos (by norm_num)]

/-- A number of tones that does not fit an `int` is not defined either. -/
theorem count_violated : run initial [.loadString "x\n99999999999".toList] = .undef := by
  have hr : readSCL "x\n99999999999".toList = .undef := by decide +kernel
  simp only [run, call, load, hr]

/-- After a file could not be read, it is never reported as changed, even if it is repaired. -/
theorem reload_violated : ∃ st, run initial [.loadFile shortFile 1, .shouldReload 2] = .ok (st, [false, false]) := by
  have hr : readSCL shortFile = .throws := by decide +kernel
  obtain ⟨st, h⟩ := results_of_calls [.loadFile shortFile 1, .shouldReload 2] (by
    intro c hc
    simp only [List.mem_cons, List.not_mem_nil, or_false] at hc
    rcases hc with rfl | rfl
    · simp [Call.Defined, hr]
    · trivial)
  refine ⟨st, ?_⟩
  rw [h]
  simp [answers, accepted, hr]

/-! ### Examples -/

/-- A file with comments, a ratio, cents and a final octave. -/
def sample : Text := "! sample.scl\nJust fragments\n 3\n!\n9/8\n 701.955 fifth\n2\nend".toList

example : readSCL sample = .ok ⟨"Just fragments".toList, [.ratio 9 8, .cents (701955 / 1000), .ratio 2 1]⟩ := by
  decide +kernel

/-- `scl_read_partial` applies to it. -/
example : Layout "Just fragments".toList [.fraction ['9'] ['8'], .cents false ['7', '0', '1'] ['9', '5', '5'], .whole ['2']]
    (["! sample.scl".toList] ++ "Just fragments".toList :: [] ++ " 3".toList ::
      ["!".toList, "9/8".toList, " 701.955 fifth".toList, "2".toList] ++ ["end".toList]) := by
  refine Layout.mk _ _ _ _ _ ?_ ?_ ?_ ?_ ?_
  · intro l hl; simp only [List.mem_singleton] at hl; subst hl; rfl
  · unfold Comment; decide
  · simp
  · exact CountLine.mk [' '] ['3'] [] (by simp) (by unfold Digits; decide) (by simp) (by decide) (by simp)
  · refine .comment _ (.inl rfl) (.tone _ ?_ (.tone _ ?_ (.tone _ ?_ .nil)))
    · exact ToneLine.mk [] [] (by simp) (by unfold Written.Good Digits; decide) (by simp [Written.Tail])
    · refine ToneLine.mk [' '] " fifth".toList (by simp) (by unfold Written.Good Digits; decide) ?_
      intro c hc
      have : c = ' ' := by simpa using hc.symm
      subst this; decide
    · exact ToneLine.mk [] [] (by simp) (by unfold Written.Good Digits; decide) (by simp [Written.Tail])

/-- `tuning_of_calls` and the others apply to these calls, which end with a scale of three tones on key 62 at 432 Hz. -/
example : let cs : List Call := [.setFrequency (-1), .loadFile sample 7, .setRootKey 62, .shouldReload 7, .setFrequency 432,
      .shouldReload 9, .shouldReload 8]
    (∀ c ∈ cs, c.Defined) ∧ lastRoot cs 60 = 62 ∧ lastFrequency cs 440 = 432 ∧
      (lastScale cs evenTemperament).tones = [.ratio 9 8, .cents (701955 / 1000), .ratio 2 1] ∧
      (∀ t ∈ (lastScale cs evenTemperament).tones, t.Sound) ∧
      answers none cs = [false, true, false, false, false, true, false] := by
  have hr : readSCL sample = .ok ⟨"Just fragments".toList, [.ratio 9 8, .cents (701955 / 1000), .ratio 2 1]⟩ := by
    decide +kernel
  have hs : scaleOf sample = ⟨"Just fragments".toList, [.ratio 9 8, .cents (701955 / 1000), .ratio 2 1]⟩ := by
    rw [scaleOf, hr]; rfl
  have ha : accepted sample = true := by rw [accepted, hr]; rfl
  refine ⟨?_, rfl, ?_, ?_, ?_, ?_⟩
  · simp [Call.Defined, hr]
  · simp [lastFrequency]
  · simp [lastScale, hs]
  · simp [lastScale, hs, Tone.Sound]
  · simp [answers, ha]

end Verif.Tuning
