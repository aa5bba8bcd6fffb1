import Verif.Model.Expression

/-!
# Specification for C105: how often the cached evaluator computes a subexpression
-/

namespace Crypto3Zk

variable {V R : Type*} [LinearOrder V] [CommRing R] [DecidableEq R]

/-- All subexpressions, with their repetitions. -/
def Expr.subexprs : Expr V R → List (Expr V R)
  | .term t => [.term t]
  | .pow e p => .pow e p :: e.subexprs
  | .bin o l r => .bin o l r :: (l.subexprs ++ r.subexprs)

/-- How often an expression equal to `k` is in the list. -/
def timesIn (k : Expr V R) (l : List (Expr V R)) : Nat := l.countP fun e => e.beq k

/-- The subexpressions that are worth storing: all but the terms of at most two variables. -/
def Expr.Worth : Expr V R → Prop
  | .term t => 2 < t.vars.length
  | _ => True

/-- The cached evaluator, with a list of the subexpressions that it computes (and does not find in the cache). The
function that gives the values of variables is called for the variables of the terms in this list. -/
def Expr.evalCachedLog (get : V → R) : Expr V R → CacheState V R → (R × CacheState V R) × List (Expr V R)
  | .term t, s =>
    if t.vars.length = 0 then ((t.coeff, s), [])
    else
      match (if t.vars.length > 2 then mapFind s.cache (.term t) else none) with
      | some v => (cacheHit (.term t) v s, [])
      | none => (cacheStore (.term t) (termLoop get t.vars t.coeff) s, [.term t])
  | .pow e p, s =>
    match mapFind s.cache (.pow e p) with
    | some v => (cacheHit (.pow e p) v s, [])
    | none =>
      let a := evalCachedLog get e s
      (cacheStore (.pow e p) (a.1.1 ^ p) a.1.2, a.2 ++ [.pow e p])
  | .bin o l r, s =>
    match mapFind s.cache (.bin o l r) with
    | some v => (cacheHit (.bin o l r) v s, [])
    | none =>
      let a := evalCachedLog get l s
      let b := evalCachedLog get r a.1.2
      (cacheStore (.bin o l r) (match o with
        | .add => a.1.1 + b.1.1
        | .sub => a.1.1 - b.1.1
        | .mult => a.1.1 * b.1.1) b.1.2, a.2 ++ b.2 ++ [.bin o l r])

/-- The variables whose values are asked for, when these subexpressions are computed. -/
def getterCalls (log : List (Expr V R)) : List V :=
  log.flatMap fun
    | .term t => t.vars
    | _ => []

/-- The evaluator after `n` calls of `evaluate()`. -/
def Expr.afterCalls (get : V → R) (e : Expr V R) : Nat → CacheState V R
  | 0 => ⟨[], []⟩
  | n + 1 => (evaluateCached get e (afterCalls get e n)).2

/-- The subexpressions that are computed in the call of `evaluate()` that comes after `n` calls. -/
def Expr.computedIn (get : V → R) (e : Expr V R) (n : Nat) : List (Expr V R) :=
  (evalCachedLog get e ⟨countSub e [], (e.afterCalls get n).cache⟩).2

end Crypto3Zk
