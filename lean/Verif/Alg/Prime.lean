import Verif.Alg.Error
import Verif.Base.BMap
import Mathlib.Data.Nat.Sqrt
/-
Model of `projects/sm-algorithm/src/prime/prime_sum.rs` and `prime_count.rs`.

`u64` arithmetic depends on whether overflow checks are compiled in (`chk`): with them an
overflow panics, without them the result wraps modulo 2^64.
-/
namespace SM.Alg

/-- `a + b` on `u64`. -/
def u64Add (chk : Bool) (a b : Nat) : Res Nat :=
  if a + b < 2 ^ 64 then .ok (a + b) else if chk then .panic else .ok ((a + b) % 2 ^ 64)

/-- `a * b` on `u64`. -/
def u64Mul (chk : Bool) (a b : Nat) : Res Nat :=
  if a * b < 2 ^ 64 then .ok (a * b) else if chk then .panic else .ok ((a * b) % 2 ^ 64)

/-- `a - b` on `u64`. -/
def u64Sub (chk : Bool) (a b : Nat) : Res Nat :=
  if b ≤ a then .ok (a - b) else if chk then .panic else .ok ((a + 2 ^ 64 - b) % 2 ^ 64)

/-- `a.wrapping_sub(b)` on `u64`. -/
def u64WrappingSub (a b : Nat) : Nat := (a + 2 ^ 64 - b) % 2 ^ 64

/-- `s[&k]`: panics if the key is absent. -/
def mapIndex (s : BMap Nat Nat) (k : Nat) : Res Nat := Out.unwrap (BMap.get BMap.natCmp k s)

/-- prime_sum.rs:17-18: `v = [n/1, ..., n/r] ++ [last-1, ..., 0]`, where `v.last().unwrap()`
panics if `r = 0`. -/
def primeSumKeys (n r : Nat) : Res (List Nat) :=
  let v := (List.range' 1 r).map (fun i => n / i)
  match v.getLast? with
  | none => .panic
  | some last => .ok (v ++ (List.range last).reverse)

/-- prime_sum.rs:19: one initial entry `(i, ((i + 1) * i / 2).wrapping_sub(1))`. -/
def primeSumEntry (chk : Bool) (i : Nat) : Res (Nat × Nat) := do
  let a ← u64Add chk i 1
  let b ← u64Mul chk a i
  pure (i, u64WrappingSub (b / 2) 1)

/-- prime_sum.rs:19: the entries, in order (`Iterator::map` before `collect`). -/
def primeSumEntries (chk : Bool) : List Nat → Res (List (Nat × Nat))
  | [] => .ok []
  | i :: v => do
    let e ← primeSumEntry chk i
    let l ← primeSumEntries chk v
    pure (e :: l)

/-- prime_sum.rs:24-27: the inner loop over `v`.  The right operand of `-=` is evaluated before
the subtraction; `get_mut(..).unwrap()` panics on an absent key. -/
def primeSumInner (chk : Bool) (p sp p2 : Nat) : List Nat → BMap Nat Nat → Res (BMap Nat Nat)
  | [], s => .ok s
  | ve :: v, s =>
    if ve < p2 then .ok s
    else do
      let a ← mapIndex s (ve / p)
      let b ← u64Sub chk a sp
      let c ← u64Mul chk p b
      let d ← mapIndex s ve
      let e ← u64Sub chk d c
      primeSumInner chk p sp p2 v (BMap.insert BMap.natCmp ve e s)

/-- prime_sum.rs:20-29: the outer loop over `p`. -/
def primeSumOuter (chk : Bool) (v : List Nat) : List Nat → BMap Nat Nat → Res (BMap Nat Nat)
  | [], s => .ok s
  | p :: ps, s => do
    let a ← mapIndex s p
    let sp ← mapIndex s (p - 1)
    if a > sp then
      let p2 ← u64Mul chk p p
      let s ← primeSumInner chk p sp p2 v s
      primeSumOuter chk v ps s
    else primeSumOuter chk v ps s

/-- prime_sum.rs:14-31 `prime_sum_u64`.  `n.sqrt()` is the floor of the square root.
`(r + 1).pow(2)` overflows like a multiplication. -/
def primeSumU64 (chk : Bool) (n : Nat) : Res Nat := do
  let r := Nat.sqrt n
  let rr ← u64Mul chk r r
  let r1 ← u64Add chk r 1
  let rr1 ← u64Mul chk r1 r1
  if rr ≤ n ∧ rr1 > n then
    let v ← primeSumKeys n r
    let es ← primeSumEntries chk v
    let s ← primeSumOuter chk v (List.range' 2 (r - 1)) (BMap.ofList BMap.natCmp es)
    mapIndex s n
  else .panic

/-- prime_sum.rs:40-70 `prime_sum_table`: the insertions in order. -/
def primeSumTable : List (Int × Int) := [
    (1, 0),
    (10, 17),
    (100, 1060),
    (1000, 76127),
    (10000, 5736396),
    (100000, 454396537),
    (1000000, 37550402023),
    (10000000, 3203324994356),
    (100000000, 279209790387276),
    (1000000000, 24739512092254535),
    (10000000000, 2220822432581729238),
    (100000000000, 201467077743744681014),
    (1000000000000, 18435588552550705911377),
    (10000000000000, 1699246443377779418889494),
    (100000000000000, 157589260710736940541561021),
    (1000000000000000, 14692398516908006398225702366),
    (10000000000000000, 1376110854313351899159632866552),
    (100000000000000000, 129408626276669278966252031311350),
    (1000000000000000000, 12212914292949226570880576733896687),
    (10000000000000000000, 1156251260549368082781614413945980126),
    (100000000000000000000, 109778913483063648128485839045703833541),
    (1000000000000000000000, 10449550362130704786220283253063405651965),
    (10000000000000000000000, 996973504763259668279213971353794878368213),
    (100000000000000000000000, 95320530117168404458544684912403185555509650),
    (1000000000000000000000000, 9131187511156941634384410084928380134453142199),
    (10000000000000000000000000, 876268031750623105684911815303505535704119354853)]

/-- prime_sum.rs:72-83 `prime_sum_i`. -/
def primeSumI (chk : Bool) (n : Int) : Res Int :=
  match BMap.get BMap.intCmp n (BMap.ofList BMap.intCmp primeSumTable) with
  | some s => .ok s
  | none =>
    if n < 0 then .err (.undefined "wrong def".toList)
    else
      match toU64 n with
      | none => .err .unimplemented
      | some s => (fun (x : Nat) => (x : Int)) <$> primeSumU64 chk s

/-- prime_count.rs:15-46 `prime_count_table`: the insertions in order. -/
def primeCountTable : List (Int × Int) := [
    (1, 0),
    (10, 4),
    (100, 25),
    (1000, 168),
    (10000, 1229),
    (100000, 9592),
    (1000000, 78498),
    (10000000, 664579),
    (100000000, 5761455),
    (1000000000, 50847534),
    (10000000000, 455052511),
    (100000000000, 4118054813),
    (1000000000000, 37607912018),
    (10000000000000, 346065536839),
    (100000000000000, 3204941750802),
    (1000000000000000, 29844570422669),
    (10000000000000000, 279238341033925),
    (100000000000000000, 2623557157654233),
    (1000000000000000000, 24739954287740860),
    (10000000000000000000, 234057667276344607),
    (100000000000000000000, 2220819602560918840),
    (1000000000000000000000, 21127269486018731928),
    (10000000000000000000000, 201467286689315906290),
    (100000000000000000000000, 1925320391606803968923),
    (1000000000000000000000000, 18435599767349200867866),
    (10000000000000000000000000, 176846309399143769411680),
    (100000000000000000000000000, 1699246750872437141327603),
    (1000000000000000000000000000, 16352460426841680446427399)]

/-- prime_count.rs:48-59 `prime_count_i`. -/
def primeCountI (n : Int) : Res Int :=
  match BMap.get BMap.intCmp n (BMap.ofList BMap.intCmp primeCountTable) with
  | some s => .ok s
  | none =>
    if n < 0 then .err (.undefined "wrong def".toList)
    else
      match toU64 n with
      | none => .err .unimplemented
      | some _ => .err .unimplemented

end SM.Alg
