import Mathlib.Logic.Function.Basic

/-! Model of how the objects of the C++ interface (`src/sfizz/sfizz.cpp:13-48`, class `sfz::Sfizz`) and the references of the C interface
(`src/sfizz/sfizz_wrapper.cpp:19-22, 69-77`) own synthesizers (`src/sfizz/sfizz_private.hpp:11-37`). Synthesizers and variables are numbered.
Simplified: a count is a number without limit (`size_t` in the code); one call happens after another (C111 has the interleavings). Using a
synthesizer that does not exist, or the null pointer, or a variable that is not alive, is undefined: `none`. -/
namespace Verif.Handles

open Function

/-- The world: the counts of the synthesizers (0 for those that do not exist), how many were made, those deleted, in order, and the
variables of type `Sfizz`: alive or not, and the pointer they hold. -/
structure World where
  rc : Nat → Nat
  made : Nat
  deleted : List Nat
  vars : Nat → Option (Option Nat)

def init : World := { rc := fun _ => 0, made := 0, deleted := [], vars := fun _ => none }

/-- `new sfizz_synth_t` (sfizz_private.hpp:13): the count begins at 1. -/
def World.create (w : World) : World := { w with rc := update w.rc w.made 1, made := w.made + 1 }

/-- `remember` (sfizz_private.hpp:24-27). -/
def World.remember (w : World) (e : Nat) : Option World :=
  if w.rc e = 0 then none else some { w with rc := update w.rc e (w.rc e + 1) }

/-- `forget` (sfizz_private.hpp:29-33). -/
def World.forget (w : World) (e : Nat) : Option World :=
  if w.rc e = 0 then none
  else if w.rc e = 1 then some { w with rc := update w.rc e 0, deleted := w.deleted ++ [e] }
  else some { w with rc := update w.rc e (w.rc e - 1) }

def World.setVar (w : World) (v : Nat) (x : Option (Option Nat)) : World := { w with vars := update w.vars v x }

/-- `if (synth) synth->forget();` (sfizz.cpp:20-21, 42-43). -/
def World.release (w : World) : Option Nat → Option World
  | none => some w
  | some e => w.forget e

inductive Op
  /-- `sfizz_create_synth` -/
  | create
  /-- `sfizz_add_ref` -/
  | addRef (e : Nat)
  /-- `sfizz_free` -/
  | free (e : Nat)
  /-- Any other function of the C interface. -/
  | useC (e : Nat)
  /-- `Sfizz v;` -/
  | make (v : Nat)
  /-- `Sfizz v(p);` -/
  | wrap (v : Nat) (p : Option Nat)
  /-- `Sfizz v(std::move(x));` -/
  | moveNew (v x : Nat)
  /-- `v = std::move(x);` -/
  | moveAssign (v x : Nat)
  /-- The end of `v`. -/
  | destroy (v : Nat)
  /-- Any other method of `v`. -/
  | use (v : Nat)

/-- One call. -/
def step (w : World) : Op → Option World
  -- sfizz_wrapper.cpp:19-22
  | .create => some w.create
  -- sfizz_wrapper.cpp:69-72
  | .addRef e => w.remember e
  -- sfizz_wrapper.cpp:74-77
  | .free e => w.forget e
  | .useC e => if w.rc e = 0 then none else some w
  -- sfizz.cpp:13-16
  | .make v => if w.vars v = none then some (w.create.setVar v (some (some w.made))) else none
  -- sfizz.cpp:24-29
  | .wrap v p =>
    if w.vars v = none then
      match p with
      | none => some (w.setVar v (some none))
      | some e => (w.remember e).map (·.setVar v (some (some e)))
    else none
  -- sfizz.cpp:31-35
  | .moveNew v x =>
    if w.vars v = none then (w.vars x).map fun p => (w.setVar v (some p)).setVar x (some none) else none
  -- sfizz.cpp:37-48
  | .moveAssign v x =>
    match w.vars v, w.vars x with
    | some p, some q => if v = x then some w else (w.release p).map fun w1 => (w1.setVar v (some q)).setVar x (some none)
    | _, _ => none
  -- sfizz.cpp:18-22
  | .destroy v =>
    match w.vars v with
    | some p => (w.release p).map (·.setVar v none)
    | none => none
  -- for example sfizz.cpp:50-53
  | .use v =>
    match w.vars v with
    | some (some e) => if w.rc e = 0 then none else some w
    | _ => none

/-- A history of calls. -/
def run (w : World) : List Op → Option World
  | [] => some w
  | o :: os => (step w o).bind (run · os)

end Verif.Handles
