import Verif.Alg.Error
/-
Model of `projects/sm-algorithm/src/basic/mod.rs`.

`BigInt` division `/` and remainder `%` truncate towards zero: `Int.tdiv`, `Int.tmod`.
Dividing by zero panics.
-/
namespace SM.Alg

/-- basic/mod.rs:12-29 `power_iu`. -/
def powerIU (a : Int) (b : Nat) : Res Int :=
  if a = 0 ∧ b = 0 then .err .indeterminate
  else if a = 0 ∨ b = 0 then .ok 0
  else if a = 1 then .ok 1
  else if b = 1 then .ok (b : Int)
  else
    match toU32 b with
    | none => .err .overFlow
    | some u => .ok (a ^ u)

/-- The loop of `num_integer::Integer::extended_gcd` (0.1.x, called at basic/mod.rs:42, 60, 73):
`while !r.0.is_zero() { q = r.1 / r.0; (x.0, x.1) = (x.1 - q * x.0, x.0) for r, s, t }`. -/
def egcdLoop (r0 r1 s0 s1 t0 t1 : Int) : Int × Int × Int :=
  if _h : r0 = 0 then (r1, s1, t1)
  else
    let q := r1.tdiv r0
    egcdLoop (r1 - q * r0) r0 (s1 - q * s0) s0 (t1 - q * t0) t0
termination_by r0.natAbs
decreasing_by
  have hq : r1 - r1.tdiv r0 * r0 = r1.tmod r0 := by
    have := Int.tmod_def r1 r0
    rw [this, Int.mul_comm]
  show (r1 - r1.tdiv r0 * r0).natAbs < r0.natAbs
  rw [hq, Int.natAbs_tmod]
  exact Nat.mod_lt _ (Int.natAbs_pos.2 _h)

/-- `a.extended_gcd(b)`: gcd, x, y; all three are negated if the loop ended on a negative gcd. -/
def extendedGcd (a b : Int) : Int × Int × Int :=
  let (g, x, y) := egcdLoop b a 0 1 1 0
  if g ≥ 0 then (g, x, y) else (0 - g, 0 - x, 0 - y)

/-- basic/mod.rs:41-44 `extended_gcd2`. -/
def extendedGcd2 (a b : Int) : Int × List Int :=
  let (g, x, y) := extendedGcd a b
  (g, [x, y])

/-- basic/mod.rs:46-49 `extended_gcd_n` is `unimplemented!()`. -/
def extendedGcdN (_v : List Int) : Res (Int × List Int) := .panic

/-- basic/mod.rs:59-62 `modulo_inverse`. -/
def moduloInverse (a m : Int) : Option Int :=
  let (g, x, _) := extendedGcd a m
  if g = 1 then some (x + m) else none

/-- basic/mod.rs:72-75 `modulo_division`.  `a % &gcd` panics when the gcd is zero. -/
def moduloDivision (a b m : Int) : Out Unit (Option Int) :=
  let (g, _, y) := extendedGcd b m
  if g = 0 then .panic
  else if a.tmod g = 0 then .ok (some (a.tdiv g * y)) else .ok none

/-- basic/mod.rs:84-86 `is_coprime`; `num_integer::gcd` on `BigInt` is the non-negative gcd. -/
def isCoprime (x y : Int) : Bool := decide ((Int.gcd x y : Int) = 1)

/-- `BigInt % BigInt`, panicking on a zero divisor. -/
def bigRem (a b : Int) : Out Unit Int := if b = 0 then .panic else .ok (a.tmod b)

/-- basic/mod.rs:95: `m[0..i].iter().fold(1, |p, v| p * v % m_i)`. -/
def crtProd (mi : Int) : List Int → Int → Out Unit Int
  | [], p => .ok p
  | v :: l, p => do crtProd mi l (← bigRem (p * v) mi)

/-- basic/mod.rs:96: `v.iter().zip(m.iter()).rev().fold(0, |t, (v_j, m_j)| m_j * t + v_j % m_i)`,
as a right fold over the zipped pairs (a left fold over the reversed list). -/
def crtT (mi : Int) : List (Int × Int) → Out Unit Int
  | [] => .ok 0
  | (vj, mj) :: l => do
    let t ← crtT mi l
    let r ← bigRem vj mi
    pure (mj * t + r)

/-- basic/mod.rs:94-98: the loop over `(i, (u_i, m_i))`.  `done` holds `m[0..i]`, `v` the mixed
radix digits found so far, in order; `ok none` is the early `None` of `?`. -/
def crtLoop : List (Int × Int) → (done v : List Int) → Out Unit (Option (List Int))
  | [], _, v => .ok (some v)
  | (ui, mi) :: rest, done, v => do
    let p ← crtProd mi done 1
    match moduloInverse p mi with
    | none => pure none
    | some ci =>
      let t ← crtT mi (v.zip done)
      let d ← bigRem ((ui - t) * ci) mi
      crtLoop rest (done ++ [mi]) (v ++ [d])

/-- basic/mod.rs:99-103: `ret = v.pop().unwrap()`, then
`for (v_i, m_i) in v.iter().zip(m.iter()).rev() { ret = ret * m_i + v_i }`. -/
def crtFinish (v m : List Int) : Out Unit Int :=
  match v.getLast? with
  | none => .panic
  | some last => .ok ((v.dropLast.zip m).reverse.foldl (fun ret e => ret * e.2 + e.1) last)

/-- basic/mod.rs:89-104 `chinese_remainder`. -/
def chineseRemainder (u m : List Int) : Out Unit (Option Int) :=
  if u.length ≠ m.length then .ok none
  else do
    match ← crtLoop (u.zip m) [] [] with
    | none => pure none
    | some v => some <$> crtFinish v m

/-- basic/mod.rs:114-117 `chinese_remainder_d` is `unimplemented!()`. -/
def chineseRemainderD (_u _m : List Int) (_d : Int) : Out Unit (Option Int) := .panic

end SM.Alg
