import Mathlib.Algebra.Order.Field.Rat
import Mathlib.Data.Rat.Floor

/-!
Model of the sample playback positions: `Voice::Impl::fillWithData` (/repo/src/sfizz/Voice.cpp:1067-1357),
`updateLoopInformation` (Voice.cpp:1739-1760), `sampleEnd`, `loopStart`, `loopEnd`
(/repo/src/sfizz/RegionStateful.cpp:45-73) and `sfzInterpolationCast` (/repo/src/sfizz/SIMDHelpers.h:640-675).

Positions are exact rationals where the code accumulates in `float`; frame indices are unbounded integers where the code uses
`int` (overflow is not modelled). What is modelled is which frames of the source each output frame reads; the
interpolation and the crossfade gains are not.
-/
namespace Verif.Playback

/-- `clamp` (MathHelpers.h) on integers. -/
def clampI (x lo hi : Int) : Int := max lo (min x hi)

/-- `LoopMode` (Defaults.h), `absl::nullopt` being `none`. -/
inductive Mode
  | none | noLoop | oneShot | loopContinuous | loopSustain
deriving DecidableEq, Repr

/-- What a voice knows from its start on.
`regionEnd` is `region.sampleEnd` (Synth.cpp:769), `endMod` the sum of the controller modulations of the end,
`infoEnd` is `information.end` (FilePool.cpp:253), `offset` the start frame (Voice.cpp:488), `xf` the rounded crossfade length
(Voice.cpp:1755). -/
structure Setup where
  mode : Mode
  loopCount : Option Nat
  sampleCount : Option Nat
  regionEnd : Int
  endMod : Int
  infoEnd : Int
  offset : Int
  xf : Int
deriving DecidableEq, Repr

/-- `sampleEnd_` (Voice.cpp:519; RegionStateful.cpp:45-53). -/
def Setup.sampleEnd_ (s : Setup) : Int := clampI (s.regionEnd + s.endMod) 0 s.regionEnd

/-- `sampleSize_` (Voice.cpp:520). -/
def Setup.sampleSize (s : Setup) : Int := s.sampleEnd_ - s.offset - 1

/-- `Region::shouldLoop` (Region.h:100). -/
def Setup.mayLoop (s : Setup) : Bool := s.mode == .loopContinuous || s.mode == .loopSustain

/-- `loop_` (Voice.cpp:250-259) without the counter; `stop` is `loop_.end`. -/
structure Loop where
  start : Int
  stop : Int
  xfSize : Int
deriving DecidableEq, Repr

/-- `loop_.size` (Voice.cpp:1754). -/
def Loop.size (l : Loop) : Int := l.stop + 1 - l.start
/-- `loop_.xfOutStart` (Voice.cpp:1758). -/
def Loop.xfOutStart (l : Loop) : Int := l.stop + 1 - l.xfSize
/-- `loop_.xfInStart` (Voice.cpp:1759). -/
def Loop.xfInStart (l : Loop) : Int := l.start - l.xfSize

/-- What a block of rendering is given: the speed of each frame (`baseRatio * centsFactor(pitch[i])`), the loop points
with the current controller modulations, whether the voice is released, is new (`age_ == 0`), and how many frames of the
source are in memory (Voice.cpp:1078). -/
structure Block where
  jumps : List ℚ
  loopStart : Int
  loopEnd : Int
  released : Bool
  fresh : Bool
  frames : Int
deriving DecidableEq, Repr

/-- `updateLoopInformation` for a region that may loop (Voice.cpp:1752-1757). -/
def updateLoop (s : Setup) (b : Block) : Loop :=
  let start := clampI b.loopStart 0 s.regionEnd
  { start := start, stop := max (clampI b.loopEnd 0 s.regionEnd) start, xfSize := min start s.xf }

/-- The part of the state of the voice that playback changes. -/
structure State where
  pos : Int
  frac : ℚ
  restarts : Nat
  count : Nat
deriving DecidableEq, Repr

/-- A voice that starts (Voice.cpp:488, 1709-1710). -/
def Setup.init (s : Setup) : State := { pos := s.offset, frac := 0, restarts := 0, count := 1 }

/-- `cumsum` (SIMDHelpers.h). -/
def cumsum (acc : ℚ) : List ℚ → List ℚ
  | [] => []
  | j :: js => (acc + j) :: cumsum (acc + j) js

/-- `snippetSFZInterpolationCast` (SIMDHelpers.h:642-649), for positions that are not negative. -/
def cast (x : ℚ) : Int × ℚ := (⌊min (2 ^ 24) x⌋, min (2 ^ 24) x - ⌊min (2 ^ 24) x⌋)

/-- The jumps with the corrections of the first one (Voice.cpp:1107-1110). -/
def firstJump (fresh : Bool) (frac : ℚ) : List ℚ → List ℚ
  | [] => []
  | j :: js => ((if fresh then 0 else j) + frac) :: js

/-- The positions before looping: index and fraction of each frame (Voice.cpp:1099-1113). -/
def rawPositions (st : State) (b : Block) : List (Int × ℚ) :=
  (cumsum 0 (firstJump b.fresh st.frac b.jumps)).map fun x => (st.pos + (cast x).1, (cast x).2)

/-- The inner `while` (Voice.cpp:1191-1195): the index inside the loop and the number of restarts. When the size is not
positive the code would not terminate; `Props.loop_size_pos` shows this does not happen. -/
def wrapIndex (l : Loop) (w : Int) (n : Nat) : Int × Nat :=
  if 0 < l.size ∧ l.stop < w then wrapIndex l (w - l.size) (n + 1) else (w, n)
termination_by (w - l.stop).toNat
decreasing_by omega

/-- Whether an index is in the part that is crossfaded (Voice.cpp:1172). -/
def xfading (l : Loop) (w : Int) : Bool := decide (l.start ≤ w) && decide (l.xfOutStart ≤ w)

/-- `region_->loopCount && loop_.restarts >= *region_->loopCount`. -/
def reached (c : Option Nat) (n : Nat) : Bool :=
  match c with
  | Option.none => false
  | some k => decide (k ≤ n)

/-- What the first loop over the block leaves behind. -/
structure Pass where
  out : List (Int × ℚ)
  rest : List (Int × ℚ)
  parts : List (Nat × Bool)
  blockRestarts : Nat
  restarts : Nat
deriving DecidableEq, Repr

/-- The looping part of the block (Voice.cpp:1188-1206) with `addPartitionIfNecessary` (1171-1185). -/
def loopPass (l : Loop) (c : Option Nat) : List (Int × ℚ) → (i br rs : Nat) → (oldIndex : Int) → (oldType : Bool) → Pass
  | [], _, br, rs, _, _ => ⟨[], [], [], br, rs⟩
  | (r, f) :: xs, i, br, rs, oldIndex, oldType =>
    let wn := wrapIndex l (r - l.size * br) 0
    let wrapped := decide (wn.1 < oldIndex)
    let ty := xfading l wn.1
    let here := if (i == 0 || wrapped || ty != oldType) then [(i, ty)] else []
    if wrapped && reached c (rs + wn.2) then ⟨[(wn.1, f)], xs, here, br + wn.2, rs + wn.2⟩
    else
      let p := loopPass l c xs (i + 1) (br + wn.2) (rs + wn.2) wn.1 ty
      { p with out := (wn.1, f) :: p.out, parts := here ++ p.parts }

/-- The largest fraction, `0x1.fffffep-1`. -/
def almostOne : ℚ := 1 - 1 / 2 ^ 24

/-- The rest of a looping block once the loop count is reached (Voice.cpp:1208-1216). -/
def tailPass (l : Loop) (br : Nat) (sampleEnd : Int) : List (Int × ℚ) → List (Int × ℚ)
  | [] => []
  | (r, f) :: xs =>
    if sampleEnd ≤ r - l.size * br then List.replicate (xs.length + 1) (sampleEnd, almostOne)
    else (r - l.size * br, f) :: tailPass l br sampleEnd xs

/-- What the pass without a loop gives: the frames, the frame at which the voice is switched off, the count. -/
structure Shot where
  out : List (Int × ℚ)
  off : Option Nat
  count : Nat
deriving DecidableEq, Repr

/-- `region_->sampleCount && count_ < *region_->sampleCount` (Voice.cpp:1222). -/
def moreLeft (c : Option Nat) (n : Nat) : Bool :=
  match c with
  | Option.none => false
  | some k => decide (n < k)

/-- The pass without a loop (Voice.cpp:1218-1234). -/
def shotPass (size : Int) (c : Option Nat) (mayLoop : Bool) (sampleEnd : Int) :
    List (Int × ℚ) → (i br cnt : Nat) → Shot
  | [], _, _, cnt => ⟨[], Option.none, cnt⟩
  | (r, f) :: xs, i, br, cnt =>
    if sampleEnd ≤ r - size * br then
      if moreLeft c cnt && !mayLoop then
        let p := shotPass size c mayLoop sampleEnd xs (i + 1) (br + 1) (cnt + 1)
        { p with out := (r - size * br - size, f) :: p.out }
      else ⟨List.replicate (xs.length + 1) (sampleEnd, almostOne), some i, cnt⟩
    else
      let p := shotPass size c mayLoop sampleEnd xs (i + 1) br cnt
      { p with out := (r - size * br, f) :: p.out }

/-- The partitions with their sizes (Voice.cpp:1240-1245). -/
def partSizes : List (Nat × Bool) → (n : Nat) → List (Nat × Nat × Bool)
  | [], _ => []
  | [(s, t)], n => [(s, n - s, t)]
  | (s, t) :: (s', t') :: ps, n => (s, s' - s, t) :: partSizes ((s', t') :: ps) n

/-- `subspan`. -/
def slice {α : Type} (xs : List α) (s n : Nat) : List α := (xs.drop s).take n

/-- What a block does: the source frame of each output frame, the source frames read for the crossfade, the frame at which the
voice is switched off, and the new state. -/
structure Out where
  frames : List (Int × ℚ)
  parts : List (Nat × Nat × Bool)
  xfReads : List Int
  off : Option Nat
  st : State
deriving DecidableEq, Repr

/-- Source frames read to fade in what precedes the loop (Voice.cpp:1305-1317). -/
def xfIn (l : Loop) (frames : List (Int × ℚ)) (p : Nat × Nat × Bool) : List Int :=
  if p.2.2 then
    ((slice frames p.1 p.2.1).map fun x => x.1 - (l.xfOutStart - l.xfInStart)).dropWhile (fun i => decide (i < 0))
  else []

/-- Whether the block loops (Voice.cpp:1121-1125). -/
def loops (s : Setup) (st : State) (b : Block) : Bool :=
  decide ((updateLoop s b).stop < b.frames)
    && (s.mode == .loopContinuous || (s.mode == .loopSustain && !b.released))
    && !reached s.loopCount st.restarts

/-- The last index that is played (Voice.cpp:1165). -/
def lastIndex (s : Setup) (b : Block) : Int := min s.sampleEnd_ (min s.infoEnd b.frames) - 1

/-- The state after the block (Voice.cpp:1348-1349). -/
def finish (st : State) (frames : List (Int × ℚ)) : State :=
  match frames.getLast? with
  | Option.none => st
  | some x => { st with pos := x.1, frac := x.2 }

/-- `fillWithData` (Voice.cpp:1067-1357). -/
def fillBlock (s : Setup) (st : State) (b : Block) : Out :=
  if b.jumps = [] ∨ b.frames = 0 then ⟨[], [], [], Option.none, st⟩
  else
    let raw := rawPositions st b
    let l := updateLoop s b
    if loops s st b then
      let p := loopPass l s.loopCount raw 0 0 st.restarts 0 false
      let frames := p.out ++ tailPass l p.blockRestarts (lastIndex s b) p.rest
      let parts := partSizes p.parts b.jumps.length
      ⟨frames, parts, (parts.map (xfIn l frames)).flatten, Option.none,
        finish { st with restarts := p.restarts } frames⟩
    else
      let p := shotPass s.sampleSize s.sampleCount s.mayLoop (lastIndex s b) raw 0 0 st.count
      ⟨p.out, [(0, b.jumps.length, false)], [], p.off, finish { st with count := p.count } p.out⟩

/-- A voice rendering one block after another. -/
def play (s : Setup) : State → List Block → List Out
  | _, [] => []
  | st, b :: bs => fillBlock s st b :: play s (fillBlock s st b).st bs

end Verif.Playback
