/-
Model of `tryParseDouble` and `parseFloat` (`/repo/src/objloader/external/tiny_obj_loader.h:362-479`) in floating-point arithmetic.  The text is read as in
`TinyObjModel.lean`; the arithmetic is that of a number type `F`, and the functions of the C library are parameters.
-/
import Verif.TinyObjModel

namespace NS.TinyObj

/-- what the parser uses besides `+` and `*` of `double` (tiny_obj_loader.h:403-404, 422, 461): the conversion of an `int`, `pow(10.0, -read)`, `pow(5.0, exponent)`
and `ldexp` -/
structure NumOps (F : Type) where
  conv : Int → F
  pow10 : Nat → F
  pow5 : Int → F
  ldexp : F → Int → F

variable {F : Type} [Zero F] [Add F] [Mul F] (o : NumOps F)

/-- the loop of the integer part, tiny_obj_loader.h:402-407 -/
def intLoopR : Nat → Ptr → F → Nat → R (F × Nat × Ptr × Nat)
  | 0, p, m, r => .ok (m, 0, p, r)
  | k + 1, p, m, r => do
      let c ← getIdx p 0
      if isDigit c then intLoopR k (p.drop 1) (m * o.conv 10 + o.conv (digit c)) (r + 1) else return (m, k + 1, p, r)

/-- the loop of the decimal part, tiny_obj_loader.h:420-425 -/
def fracLoopR : Nat → Ptr → F → Nat → R (F × Nat × Ptr)
  | 0, p, m, _ => .ok (m, 0, p)
  | k + 1, p, m, r => do
      let c ← getIdx p 0
      if isDigit c then fracLoopR k (p.drop 1) (m + o.conv (digit c) * o.pow10 r) (r + 1) else return (m, k + 1, p)

/-- `assemble:`, tiny_obj_loader.h:459-461 -/
def assembleR (neg : Bool) (m : F) (e : Int) : F :=
  o.conv (if neg then -1 else 1) * o.ldexp (m * o.pow5 e) e

/-- the exponent, tiny_obj_loader.h:434-457; `none` is `fail` -/
def expPartR (neg : Bool) (m : F) (k : Nat) (p : Ptr) : R (Option F) := do
  let c ← getIdx p 0
  if c = 'e' ∨ c = 'E' then do
    let p := p.drop 1
    let k := k - 1
    let c ← getIdx p 0
    if k ≠ 0 ∧ (c = '+' ∨ c = '-') then do
      let (e, r) ← expLoop (k - 1) (p.drop 1) 0 0
      if r = 0 then return none else return some (assembleR o neg m (if c = '-' then -e else e))
    else if isDigit c then do
      let (e, r) ← expLoop k p 0 0
      if r = 0 then return none else return some (assembleR o neg m e)
    else return none
  else return some (assembleR o neg m 0)

/-- from the integer part on, tiny_obj_loader.h:401-457 -/
def numberPartR (neg : Bool) (k : Nat) (p : Ptr) : R (Option F) := do
  let (m, k, p, r) ← intLoopR o k p (0 : F) 0
  if r = 0 then return none
  else if k = 0 then return some (assembleR o neg m 0)
  else do
    let c ← getIdx p 0
    if c = '.' then do
      let (m, k, p) ← fracLoopR o (k - 1) (p.drop 1) m 1
      if k = 0 then return some (assembleR o neg m 0) else expPartR o neg m k p
    else if c = 'e' ∨ c = 'E' then expPartR o neg m k p
    else return some (assembleR o neg m 0)

/-- `tryParseDouble(s, s + n, result)`, tiny_obj_loader.h:362-465; `none` is the return value `false` -/
def tryParseDoubleR (p : Ptr) (n : Nat) : R (Option F) :=
  if n = 0 then .ok none
  else do
    let c ← getIdx p 0
    if c = '+' ∨ c = '-' then numberPartR o (decide (c = '-')) (n - 1) (p.drop 1)
    else if isDigit c then numberPartR o false n p
    else return none

/-- `parseFloat(token)`, tiny_obj_loader.h:466-479; `cast` is `static_cast<float>` -/
def parseFloatR {G : Type} (cast : F → G) (p : Ptr) : R (G × Ptr) := do
  let n ← strspn blanks p
  let p ← adv p n
  let e ← strcspn blanksCr p
  let v ← tryParseDoubleR o p e
  let p' ← adv p e
  return (cast (v.getD 0), p')
end NS.TinyObj
