import Verif.Float32.Props

/-!
Model of the random numbers of /repo/src/sfizz/MathHelpers.h:622-768, with the rounding of `float` (`Verif.Float32`; overflow to
infinity is left out).

`Random::randomGenerator` (MathHelpers.h:721) is `static` in a header: every source file has its own, and all begin at 0. A history is the
history of one of them. `std::uniform_real_distribution` and `std::uniform_int_distribution`, which some callers use instead, are
the standard library's and not modelled.
-/
namespace Verif.Random

open Verif.Float32

/-- `fast_rand::operator()` (MathHelpers.h:645-650): the new state, which is the number drawn. -/
def next (mem : Nat) : Nat := (mem * 1664525 + 1013904223) % 2 ^ 32

/-- The number drawn after `n` others (`discard`, MathHelpers.h:657-661, is the same steps), from the seed `s`. -/
def nth (s : Nat) : Nat → Nat
  | 0 => next s
  | n + 1 => next (nth s n)

/-- `fast_real_distribution<float>(a, b)` applied to a number drawn (MathHelpers.h:677-686): `k_` is `b - a`, and both
`g() - T(0)` and `T(4294967295)` are rounded to `float`. -/
def real (a b : ℚ) (g : Nat) : ℚ := fl (a + fl (fl ((g : ℚ) - 0) * fl (fl (b - a) / fl ((2 ^ 32 - 1 : Nat) : ℚ))))

/-- The first `n` numbers drawn from the seed `s`. -/
def drawn : Nat → Nat → List Nat
  | _, 0 => []
  | s, n + 1 => next s :: drawn (next s) n

/-- `config::uniformNoiseBounds` (Config.h:80) and the distribution of `*noise` (Voice.cpp:295, 1504). -/
def noise (g : Nat) : ℚ := real (-1) 1 g

/-- `static_cast<int32_t>`. -/
def signed (x : Nat) : Int := if x < 2 ^ 31 then x else x - 2 ^ 32

/-- `fast_gaussian_generator<float>` (MathHelpers.h:730-768), `N` is 4. -/
structure Gauss where
  seeds : List Nat
  mean : ℚ
  gain : ℚ
deriving DecidableEq, Repr

/-- `seed` (MathHelpers.h:742-749): the seeds after the first. -/
def moreSeeds : Nat → Nat → List Nat
  | 0, _ => []
  | n + 1, s => let s := (s + (s * 1664525 + 1013904223)) % 2 ^ 32; s :: moreSeeds n s

/-- `seed`. -/
def seeds (s : Nat) : List Nat := s :: moreSeeds 3 s

/-- The loop of `operator()` (MathHelpers.h:754-758): the sum and the new seeds. -/
def sumUp : ℚ → List Nat → ℚ × List Nat
  | sum, [] => (sum, [])
  | sum, x :: xs =>
    let r := sumUp (fl (sum + fl (fl (signed (next x)) * (1 / 2 ^ 31)))) xs
    (r.1, next x :: r.2)

/-- `operator()` (MathHelpers.h:751-760). -/
def Gauss.tick (x : Gauss) : ℚ × Gauss :=
  (fl (x.mean + fl (x.gain * (sumUp 0 x.seeds).1)), { x with seeds := (sumUp 0 x.seeds).2 })

/-- `c_generate` over a buffer of `n` frames (Voice.cpp:1516-1517). -/
def Gauss.frames (x : Gauss) : Nat → List ℚ × Gauss
  | 0 => ([], x)
  | n + 1 => (x.tick.1 :: (x.tick.2.frames n).1, (x.tick.2.frames n).2)

/-- The generators of the voices: each is made with the next number of the generator of Voice.cpp (MathHelpers.h:735, Voice.cpp:296),
which begins at 0. `gain` is 0.25 / √(4/3) as a `float` (MathHelpers.h:738, Config.h:81). -/
def voiceGauss (gain : ℚ) (voice : Nat) : Gauss := ⟨seeds (nth 0 voice), 0, gain⟩

end Verif.Random
