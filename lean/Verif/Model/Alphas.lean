import Mathlib.Algebra.Field.Defs

/-!
# The alpha-power registry (pickles/alphas.hpp)

`argument_type` is an arbitrary type of keys. The C++ counters are `int`; here they are natural
numbers (registering a negative number of powers and overflow are not modelled).
-/

namespace Crypto3Zk

variable {K : Type} [DecidableEq K] {F : Type} [Field F]

/-- `Alphas` (pickles/alphas.hpp:43-52). The map is an association list; keys are never replaced. -/
structure Alphas (K F : Type) where
  nextPower : Nat
  alphas : List F
  mapping : List (K × (Nat × Nat))

/-- The default constructor (pickles/alphas.hpp:54). -/
def Alphas.fresh : Alphas K F := ⟨0, [], []⟩

/-- `mapping.find(arg)` (plonk/pickles/alphas.hpp:58, 79) -/
def Alphas.find (a : Alphas K F) (arg : K) : Option (Nat × Nat) :=
  (a.mapping.find? fun e => e.1 = arg).map (·.2)

/-- `register_` (pickles/alphas.hpp:57-63). -/
def Alphas.register (a : Alphas K F) (arg : K) (power : Nat) : Alphas K F :=
  let mapping := if (a.find arg).isNone then a.mapping ++ [(arg, (a.nextPower, power))] else a.mapping
  { a with mapping := mapping, nextPower := a.nextPower + power }

/-- The loop of `instantiate` (pickles/alphas.hpp:70-74): `n` more entries after one equal to
`last`. -/
def alphaPowersLoop (alpha : F) : F → Nat → List F
  | _, 0 => []
  | last, n + 1 => last * alpha :: alphaPowersLoop alpha (last * alpha) n

/-- `instantiate` (pickles/alphas.hpp:65-75). -/
def Alphas.instantiate (a : Alphas K F) (alpha : F) : Alphas K F :=
  { a with alphas := 1 :: alphaPowersLoop alpha 1 (a.nextPower - 1) }

/-- `get_alphas` (pickles/alphas.hpp:78-86). `none` is a failed assertion or a range that reaches
past the end of the stored powers. -/
def Alphas.getAlphas (a : Alphas K F) (arg : K) (num : Nat) : Option (List F) :=
  match a.find arg with
  | none => none
  | some range =>
    if num ≤ range.2 then
      if range.1 + num ≤ a.alphas.length then some ((a.alphas.drop range.1).take num) else none
    else none

/-- A history of registrations on a fresh object (calls of `register_`, plonk/pickles/alphas.hpp:57). -/
def registerAll (regs : List (K × Nat)) : Alphas K F :=
  regs.foldl (fun a r => a.register r.1 r.2) Alphas.fresh

end Crypto3Zk
