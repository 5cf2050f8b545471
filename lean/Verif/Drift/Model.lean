import Verif.Float32.Props
import Mathlib.Data.List.GetD

/-!
# Places and phases with the rounding of `float`

The place of a voice in its sample (`Voice::Impl::fillWithData`, `Voice.cpp:1095-1114` and
`1348-1349`) and the phases of LFOs (`LFO::generatePhase`, `LFO.cpp:327-404`) and of oscillators
(`Wavetables.cpp:39-45`), every operation rounded as binary32 (`Verif.Float32`).

Modelled is a voice that plays on (no loop, no end of the sample): wrapping a loop takes whole
frames off the integer part and leaves the rest as it is.
-/

namespace Verif.Drift

open Verif.Float32

/-! ## Running sums -/

/-- One scalar step of `cumsum` (`HelpersScalar.h:176-189`; `HelpersSSE.cpp:463-466`,
`480-483`). -/
def scalar : ℚ → List ℚ → List ℚ
  | _, [] => []
  | o, x :: xs => fl (o + x) :: scalar (fl (o + x)) xs

/-- The four lanes of one vector of `cumsumSSE` before the running value is added
(`HelpersSSE.cpp:470-472`): add the vector moved by one lane, then the first two lanes of that
moved by two. -/
def lanes (a b c d : ℚ) : ℚ × ℚ × ℚ × ℚ :=
  let s0 := fl (a + 0)
  let s1 := fl (b + a)
  let s2 := fl (c + b)
  let s3 := fl (d + c)
  (fl (s0 + 0), fl (s1 + 0), fl (s2 + s0), fl (s3 + s1))

/-- `cumsumSSE` after its first element (`HelpersSSE.cpp:461-484`): `pre` scalar steps up to an
aligned address, `vecs` vectors, scalar steps for the rest.  Both numbers depend on the addresses
and are arbitrary here; with `pre = vecs = 0` this is `cumsumScalar`. -/
def sums : ℕ → ℕ → ℚ → List ℚ → List ℚ
  | pre + 1, vecs, o, x :: xs => fl (o + x) :: sums pre vecs (fl (o + x)) xs
  | 0, vecs + 1, o, a :: b :: c :: d :: xs =>
    let t := lanes a b c d
    fl (o + t.1) :: fl (o + t.2.1) :: fl (o + t.2.2.1) :: fl (o + t.2.2.2)
      :: sums 0 vecs (fl (o + t.2.2.2)) xs
  | _, _, o, xs => scalar o xs

/-- `cumsum` (`HelpersSSE.cpp:453-484`). -/
def cumsum (pre vecs : ℕ) : List ℚ → List ℚ
  | [] => []
  | x :: xs => x :: sums pre vecs x xs

/-! ## The place in the sample -/

/-- `snippetSFZInterpolationCast` (`SIMDHelpers.h:641-649`) of a number that is not negative. -/
def interpolationCast (p : ℚ) : ℤ × ℚ :=
  let l := min ((2 : ℚ) ^ 24) p
  (⌊l⌋, fl (l - fl (⌊l⌋ : ℤ)))

/-- `sourcePosition_` and `floatPositionOffset_`. -/
structure Place where
  pos : ℤ
  off : ℚ

/-- What the place means. -/
def Place.at (p : Place) : ℚ := p.pos + p.off

/-- The addresses of the buffers of a block, as far as `cumsum` looks at them. -/
structure Addr where
  pre : ℕ
  vecs : ℕ

/-- One block (`Voice.cpp:1106-1113`): `jumps` are the speeds of its frames, with 0 for the very
first frame of the voice.  The places heard. -/
def heard (p : Place) (a : Addr) : List ℚ → List Place
  | [] => []
  | x :: xs => (cumsum a.pre a.vecs (fl (x + p.off) :: xs)).map fun q =>
      let c := interpolationCast q
      ⟨p.pos + c.1, c.2⟩

/-- The place kept for the next block (`Voice.cpp:1348-1349`; an empty block returns at line
1071). -/
def next (p : Place) (a : Addr) (jumps : List ℚ) : Place := (heard p a jumps).getLastD p

/-- The blocks of a note: all the places heard. -/
def session (p : Place) : List (Addr × List ℚ) → List Place
  | [] => []
  | b :: bs => heard p b.1 b.2 ++ session (next p b.1 b.2) bs

/-! ## Phases -/

/-- `wrapPhase(phase + incr)` (`MathHelpers.h:321-327`, `LFO.cpp:381`) and `incrementAndWrap`
(`Wavetables.cpp:39-45`) for numbers that are not negative: the comparison with 0 is false, and
adding 0 changes nothing. -/
def advance (incr phase : ℚ) : ℚ :=
  let s := fl (phase + incr)
  fl (s - fl (⌊s⌋ : ℤ))

/-- The phase after so many frames; a note starts with 0 (`LFO.cpp:82`). -/
def phase (incr : ℚ) : ℕ → ℚ
  | 0 => 0
  | n + 1 => advance incr (phase incr n)

/-- The increment of an LFO without modulation (`LFO.cpp:335`, `378`). -/
def lfoIncr (rate ratio freq : ℚ) : ℚ := fl (fl (ratio * fl (1 / rate)) * freq)

end Verif.Drift
