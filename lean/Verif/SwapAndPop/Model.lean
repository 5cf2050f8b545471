/-!
Model of `swapAndPopAll` / `swapAndPopFirst` (`src/sfizz/utility/SwapAndPop.h`).

A vector is a list. An index outside of the vector is undefined behaviour: the model returns `none`.
-/
namespace Verif.SwapAndPop

variable {α : Type}

/-- `std::iter_swap` of positions `i` and `j`; `none` when a position is outside. -/
def swapAt (l : List α) (i j : Nat) : Option (List α) :=
  match l[i]?, l[j]? with
  | some a, some b => some ((l.set i b).set j a)
  | _, _ => none

/-- The `while` loop (SwapAndPop.h:27-35). `i` is the offset of `it`; `n` is the offset of `sentinel.base()`;
`acted` is the list of elements handed to `action` so far. -/
def loopAll (p : α → Bool) (l : List α) (i n : Nat) (acted : List α) : Option (List α × Nat × List α) :=
  if _h : i < n then
    match l[i]? with
    | none => none
    | some x =>
      if p x then
        match swapAt l i (n - 1) with
        | none => none
        | some l' => loopAll p l' i (n - 1) (acted ++ [x])
      else loopAll p l (i + 1) n acted
  else some (l, n, acted)
termination_by n - i

/-- `swapAndPopAll` (SwapAndPop.h:22-39): final vector, number removed, elements acted upon in order. -/
def swapAndPopAll (p : α → Bool) (l : List α) : Option (List α × Nat × List α) :=
  match loopAll p l 0 l.length [] with
  | none => none
  | some (l', n, acted) => some (l'.take n, l'.length - n, acted)

/-- The loop of `swapAndPopFirst` (SwapAndPop.h:71-79). -/
def loopFirst (p : α → Bool) (l : List α) (i : Nat) : Option (List α × Option α) :=
  if _h : i < l.length then
    match l[i]? with
    | none => none
    | some x =>
      if p x then
        match swapAt l i (l.length - 1) with
        | none => none
        | some l' => some (l'.dropLast, some x)
      else loopFirst p l (i + 1)
  else some (l, none)
termination_by l.length - i

/-- `swapAndPopFirst` (SwapAndPop.h:66-81): final vector and the element removed, if any. -/
def swapAndPopFirst (p : α → Bool) (l : List α) : Option (List α × Option α) := loopFirst p l 0

end Verif.SwapAndPop
