import Verif.Adsr.Shape

/-! # Notes released during the delay of their envelope (C122) -/
namespace Verif.Adsr

/-- Released while `D` frames of the delay are left; the release is due before its end. -/
structure Early (v ρ T : ℚ) (e : Env) (D : Nat) : Prop where
  st : e.state = .delay
  start : e.start = v
  sr : e.shouldRelease = true
  rr : e.releaseRate = ρ
  trans : e.trans = T
  dl : e.delay = D
  pos : 0 < D
  rd : -1 ≤ e.releaseDelay ∧ e.releaseDelay < D

/-- The delay is over: the release takes effect with the next frame. -/
structure Ripe (v ρ T : ℚ) (e : Env) : Prop where
  st : e.state = .attack
  sr : e.shouldRelease = true
  rd : e.releaseDelay = -1
  rr : e.releaseRate = ρ
  trans : e.trans = T
  cur : e.cur = v
  dl : e.delay ≤ 0

theorem ripe_block {v ρ T : ℚ} {e : Env} (h : Ripe v ρ T e) (n : Nat) (hn : 0 < n) (K : Nat) :
    ∃ e0, Released v ρ T K e0 0 ∧ block e n = block e0 n := by
  have hr : Released v ρ T K { e with state := .release } 0 :=
    ⟨h.sr, h.rd, h.rr, by rw [← h.trans]; rfl, by simp [h.cur]⟩
  refine ⟨{ e with state := .release }, hr, ?_⟩
  have hturn : turn e n = turn { e with state := .release } n := by
    unfold turn
    rw [released_prepare hr]
    have : prepare e n = ({ e with state := .release }, n) := by
      unfold prepare
      rw [if_pos h.sr, h.rd, if_neg (by omega), if_neg (by omega), if_pos ⟨rfl, by rw [h.st]; decide, h.dl⟩]
    rw [this]
  rw [block, dif_neg (by omega), hturn]
  conv_rhs => rw [block, dif_neg (by omega)]

theorem early_turn {v ρ T : ℚ} {e : Env} {D : Nat} (h : Early v ρ T e D) (n : Nat) (hn : 0 < n) :
    ∃ m, 0 < m ∧ m ≤ n ∧ m ≤ D ∧ (turn e n).1 = List.replicate m v ∧
      ((m < D ∧ Early v ρ T (turn e n).2 (D - m)) ∨ (m = D ∧ Ripe v ρ T (turn e n).2)) := by
  have hD := h.pos
  by_cases hrd : 0 < e.releaseDelay
  · -- the release lies ahead
    obtain ⟨d, hd⟩ : ∃ d : Nat, e.releaseDelay = d := ⟨e.releaseDelay.toNat, by omega⟩
    have hlt := h.rd.2
    have hp : prepare e n = (e, min n d) := by
      unfold prepare
      rw [if_pos h.sr, if_pos hrd, hd]
      rfl
    have hloop : delayLoop (min n d) e.delay = (min n d, e.delay - (min n d : Nat)) := by
      rcases delayLoop_exact (min n d) e.delay (by rw [h.dl]; omega) with ⟨_, h2⟩ | ⟨h1, _⟩
      · exact h2
      · rw [h.dl] at h1; omega
    refine ⟨min n d, by omega, by omega, by omega, ?_, Or.inl ⟨by omega, ?_⟩⟩
    · unfold turn
      rw [hp]
      simp only [segment, h.st, hloop, h.start]
    · have hdl := h.dl
      unfold turn
      rw [hp]
      simp only [segment, h.st, hloop]
      rw [if_neg (by omega)]
      unfold finish
      simp only [h.sr, if_true, List.length_replicate]
      exact ⟨rfl, h.start, rfl, h.rr, by rw [← h.trans]; rfl, by simp only; omega, by omega, by simp only; omega⟩
  · -- the release waits for the end of the delay
    have hrd' := h.rd.1
    have hdl := h.dl
    have hp : prepare e n = (e, n) := by
      unfold prepare
      rw [if_pos h.sr, if_neg hrd, if_neg (by omega), if_neg (by omega)]
    rcases delayLoop_exact n e.delay (by omega) with ⟨h1, h2⟩ | ⟨h1, h2⟩
    · by_cases hend : n = D
      · refine ⟨n, hn, le_rfl, by omega, ?_, Or.inr ⟨hend, ?_⟩⟩
        · unfold turn
          rw [hp]
          simp only [segment, h.st, h2, h.start]
        · unfold turn
          rw [hp]
          simp only [segment, h.st, h2]
          rw [if_pos (by omega)]
          unfold finish
          simp only [h.sr, if_true, List.length_replicate]
          exact ⟨rfl, rfl, by simp only; omega, h.rr, by rw [← h.trans]; rfl, by simp only; rw [if_pos hn, h.start], by simp only; omega⟩
      · refine ⟨n, hn, le_rfl, by omega, ?_, Or.inl ⟨by omega, ?_⟩⟩
        · unfold turn
          rw [hp]
          simp only [segment, h.st, h2, h.start]
        · unfold turn
          rw [hp]
          simp only [segment, h.st, h2]
          rw [if_neg (by omega)]
          unfold finish
          simp only [h.sr, if_true, List.length_replicate]
          exact ⟨rfl, h.start, rfl, h.rr, by rw [← h.trans]; rfl, by simp only; omega, by omega, by simp only; omega⟩
    · have e1 : e.delay.toNat = D := by omega
      rw [e1] at h2
      refine ⟨D, hD, by omega, le_rfl, ?_, Or.inr ⟨rfl, ?_⟩⟩
      · unfold turn
        rw [hp]
        simp only [segment, h.st, h2, h.start]
      · unfold turn
        rw [hp]
        simp only [segment, h.st, h2]
        rw [if_pos (by omega)]
        unfold finish
        simp only [h.sr, if_true, List.length_replicate]
        exact ⟨rfl, rfl, by simp only; omega, h.rr, by rw [← h.trans]; rfl, by simp only; rw [if_pos hD, h.start], by simp only; omega⟩

theorem early_block {v ρ T : ℚ} (e : Env) (n : Nat) : ∀ D, Early v ρ T e D →
    (n < D ∧ (block e n).1 = List.replicate n v ∧ Early v ρ T (block e n).2 (D - n)) ∨
    (D ≤ n ∧ ∃ e', Ripe v ρ T e' ∧ block e n = (List.replicate D v ++ (block e' (n - D)).1, (block e' (n - D)).2)) := by
  fun_induction block with
  | case1 e => intro D h; exact Or.inl ⟨h.pos, rfl, h⟩
  | case2 e n hn tr r ih =>
    intro D h
    obtain ⟨m, m1, m2, m3, m4, m5⟩ := early_turn h n (by omega)
    have htr : tr = turn e n := rfl
    have hlen : tr.1.length = m := by rw [htr, m4, List.length_replicate]
    have hr : r = block tr.2 (n - m) := by rw [← hlen]
    rw [hlen] at ih
    rcases m5 with ⟨hlt, he⟩ | ⟨heq, he⟩
    · rcases ih (D - m) he with ⟨i1, i2, i3⟩ | ⟨i1, e', i2, i3⟩
      · left
        refine ⟨by omega, ?_, ?_⟩
        · rw [hr, i2, htr, m4, List.replicate_append_replicate]
          rw [show m + (n - m) = n from by omega]
        · rw [hr]
          rwa [show D - m - (n - m) = D - n by omega] at i3
      · right
        refine ⟨by omega, e', i2, ?_⟩
        rw [hr, i3, htr, m4, ← List.append_assoc, List.replicate_append_replicate, show m + (D - m) = D by omega,
          show n - m - (D - m) = n - D by omega]
    · right
      refine ⟨by omega, tr.2, he, ?_⟩
      rw [hr, htr, m4, heq]

theorem ripe_gets {v ρ T : ℚ} (hT : 0 < T) {K : Nat} (hK1 : ∀ j, 1 ≤ j → j ≤ K → thr < v * ρ ^ j) (hK2 : v * ρ ^ (K + 1) ≤ thr)
    (ns : List Nat) : ∀ e, Ripe v ρ T e → ∀ j y, (gets e ns).1[j]? = some y → y = releaseLevel v ρ T K j := by
  induction ns with
  | nil => intro e _; simp [gets, runAll]
  | cons n ns ih =>
    intro e h j y hy
    rcases Nat.eq_zero_or_pos n with rfl | hn
    · rw [gets_cons, block] at hy
      exact ih e h j y (by simpa using hy)
    · obtain ⟨e0, h0, hb⟩ := ripe_block h n hn K
      have : gets e (n :: ns) = gets e0 (n :: ns) := by rw [gets_cons, gets_cons, hb]
      rw [this] at hy
      have := released_gets hT hK1 hK2 (n :: ns) e0 0 h0 j y hy
      rwa [Nat.zero_add] at this

theorem early_gets {v ρ T : ℚ} (hT : 0 < T) {K : Nat} (hK1 : ∀ j, 1 ≤ j → j ≤ K → thr < v * ρ ^ j) (hK2 : v * ρ ^ (K + 1) ≤ thr)
    (ns : List Nat) : ∀ e D, Early v ρ T e D → ∀ i y, (gets e ns).1[i]? = some y →
      y = if i < D then v else releaseLevel v ρ T K (i - D) := by
  induction ns with
  | nil => intro e D _; simp [gets, runAll]
  | cons n ns ih =>
    intro e D h i y hy
    rcases early_block e n D h with ⟨h1, h2, h3⟩ | ⟨h1, e', h2, h3⟩
    · rw [gets_cons] at hy
      by_cases hi : i < n
      · rw [List.getElem?_append_left (by rw [block_length]; exact hi), h2, List.getElem?_replicate, if_pos hi] at hy
        rw [if_pos (by omega)]
        exact (Option.some.inj hy).symm
      · rw [List.getElem?_append_right (by rw [block_length]; omega), block_length] at hy
        have := ih _ _ h3 _ y hy
        rw [this]
        by_cases hd : i < D
        · rw [if_pos hd, if_pos (by omega)]
        · rw [if_neg hd, if_neg (by omega), show i - n - (D - n) = i - D by omega]
    · have : (gets e (n :: ns)).1 = List.replicate D v ++ (gets e' ((n - D) :: ns)).1 := by
        rw [gets_cons, gets_cons, h3]
        simp
      rw [this] at hy
      by_cases hi : i < D
      · rw [List.getElem?_append_left (by simpa using hi), List.getElem?_replicate, if_pos hi] at hy
        rw [if_pos hi]
        exact (Option.some.inj hy).symm
      · rw [List.getElem?_append_right (by simpa using hi), List.length_replicate] at hy
        rw [if_neg hi]
        exact ripe_gets hT hK1 hK2 _ e' h2 _ y hy

/-- **C122, released early.** A note released at a frame before the end of its delay stays at the start level up to the end of the
delay, whatever the blocks; then its release goes from the start level, without any attack. -/
theorem early_release (sr : ℚ) (hsr : 0 < sr) (d : Nat) (p : Params) (hp : p.Ok) (hd : 0 ≤ p.delay) (hh : 0 ≤ p.hold)
    (hsus : 32 / 10000 < p.sustain) (ns : List Nat) (k : Nat) (hk : ns.sum + k < (shapeOf d p).delay) (ms : List Nat) :
    ∀ K, (∀ j, 1 ≤ j → j ≤ K → thr < (shapeOf d p).start * p.releaseRate ^ j) → (shapeOf d p).start * p.releaseRate ^ (K + 1) ≤ thr →
      ∀ t y, (history sr d p false (ns.map .get ++ .release k :: ms.map .get)).1[t]? = some y →
        y = if t < (shapeOf d p).delay then (shapeOf d p).start
          else releaseLevel (shapeOf d p).start p.releaseRate (sr / 20) K (t - (shapeOf d p).delay) := by
  intro K hK1 hK2 t y hy
  have hT : (0 : ℚ) < sr / 20 := by linarith
  have hok := shapeOf_ok d hp
  have hle : ∀ j, (ns.take j).sum ≤ ns.sum := fun j => (List.take_sublist j ns).sum_le_sum (fun _ _ => Nat.zero_le _)
  obtain ⟨h1, h2, h3, h4, -⟩ := held_gets hok hT ns _ 0 (held_start (sr := sr) hd hh hsus) (Or.inl rfl)
    (fun j _ he => by have := hle j; omega)
  have hrun : ∀ (a b : List Op) (e : Env), runAll e (a ++ b) = ((runAll e a).1 ++ (runAll (runAll e a).2 b).1, (runAll (runAll e a).2 b).2) := by
    intro a b
    induction a with
    | nil => intro e; rfl
    | cons o a ih => intro e; simp only [List.cons_append, runAll, ih, List.append_assoc]
  have hout : (history sr d p false (ns.map .get ++ .release k :: ms.map .get)).1 = (gets (reset (fresh sr) sr d p false) ns).1 ++
      (gets (startRelease (gets (reset (fresh sr) sr d p false) ns).2 k) ms).1 := by
    show (runAll (reset (fresh sr) sr d p false) _).1 = _
    rw [hrun]
    rfl
  rw [hout] at hy
  have hlen := gets_length ns (reset (fresh sr) sr d p false)
  have hrr : (gets (reset (fresh sr) sr d p false) ns).2.releaseRate = p.releaseRate := by rw [h3.rr]; rfl
  generalize gets (reset (fresh sr) sr d p false) ns = E at *
  rw [Nat.zero_add] at h2
  have hpos := h2.pos
  have hst : E.2.state = .delay ∧ E.2.delay = ((shapeOf d p).delay : Int) - ns.sum := by
    unfold Pos at hpos
    have htop : (shapeOf d p).delay ≤ (shapeOf d p).top := by unfold Shape.top; omega
    cases hc : E.2.state <;> rw [hc] at hpos
    · exact ⟨rfl, hpos.2.1⟩
    · obtain ⟨j, hj, _⟩ := hpos; omega
    · obtain ⟨j, hj, _⟩ := hpos; omega
    · obtain ⟨j, hj, _⟩ := hpos; omega
    · have := hpos.1; omega
    all_goals exact hpos.elim
  by_cases ht : t < ns.sum
  · rw [List.getElem?_append_left (by omega)] at hy
    have hr := h1 t y hy
    rw [Nat.zero_add] at hr
    have hl : t < (shapeOf d p).delay := by omega
    unfold Right at hr
    rw [if_pos (Or.inl (by unfold Shape.top; omega))] at hr
    rw [hr, if_pos hl, Shape.level, if_pos hl]
  · rw [List.getElem?_append_right (by omega), hlen] at hy
    have he : Early (shapeOf d p).start p.releaseRate (sr / 20) (startRelease E.2 k) ((shapeOf d p).delay - ns.sum) := by
      refine ⟨hst.1, h2.has.start, rfl, hrr, ?_, ?_, by omega, ?_⟩
      · rw [← h2.has.trans]; rfl
      · show E.2.delay = _
        rw [hst.2]; omega
      · show -1 ≤ (k : Int) ∧ (k : Int) < _
        omega
    have := early_gets hT hK1 hK2 ms _ _ he _ y hy
    rw [this]
    by_cases hd' : t < (shapeOf d p).delay
    · rw [if_pos hd', if_pos (by omega)]
    · rw [if_neg hd', if_neg (by omega), show t - ns.sum - ((shapeOf d p).delay - ns.sum) = t - (shapeOf d p).delay by omega]

/-- **C122, released early, silent.** With a start level of 0 such a note is never heard. -/
theorem early_silent (sr : ℚ) (hsr : 0 < sr) (d : Nat) (p : Params) (hp : p.Ok) (hd : 0 ≤ p.delay) (hh : 0 ≤ p.hold)
    (hsus : 32 / 10000 < p.sustain) (h0 : p.start = 0) (ns : List Nat) (k : Nat) (hk : ns.sum + k < (shapeOf d p).delay) (ms : List Nat) :
    ∀ y ∈ (history sr d p false (ns.map .get ++ .release k :: ms.map .get)).1, y = 0 := by
  intro y hy
  obtain ⟨t, ht, rfl⟩ := List.mem_iff_getElem.mp hy
  have hs : (shapeOf d p).start = 0 := by simp [shapeOf, h0]
  have := early_release sr hsr d p hp hd hh hsus ns k hk ms 0 (by omega) (by rw [hs, zero_mul]; exact le_of_lt thr_pos) t _
    (List.getElem?_eq_getElem ht)
  rw [this, hs]
  split
  · rfl
  · unfold releaseLevel
    rw [if_neg (by omega)]
    apply max_eq_left
    have h1 : (0 : ℚ) < max thr (0 * p.releaseRate ^ 0) := lt_of_lt_of_le thr_pos (le_max_left _ _)
    have h2 : (0 : ℚ) ≤ ((t - (shapeOf d p).delay - 0 + 1 : Nat) : ℚ) * (max thr (0 * p.releaseRate ^ 0) / (sr / 20)) := by positivity
    linarith

/-- A delay of 4 frames, released after 2. -/
example : (history 100 1 { keys with start := 1 / 2 } false ([1].map .get ++ .release 1 :: [1, 4].map .get)).1 =
    [1/2, 1/2, 1/2, 1/2, 1/8, 1/32] := observe (fun r => r.1) _ _ _ (by decide +kernel)

/-- C122 is violated: a note released exactly at the end of its delay is heard, with no attack even from full level. -/
theorem release_at_delay_violated :
    (history 100 1 { keys with attackStep := 1 } false (.release 4 :: [8].map .get)).1 = [0, 0, 0, 0, 1/4, 1/16, 1/64, 1/256] ∧
    (history 100 1 { keys with attackStep := 1 } false (.release 3 :: [8].map .get)).1 = [0, 0, 0, 0, 0, 0, 0, 0] :=
  ⟨observe (fun r => r.1) _ _ _ (by decide +kernel), observe (fun r => r.1) _ _ _ (by decide +kernel)⟩

end Verif.Adsr
