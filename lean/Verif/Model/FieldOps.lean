import Verif.Model.Limbs

/-!
Square roots, the inversion chain and hash-to-curve of `packages/secq256k1`.
-/

namespace Spartan
namespace MParams

/-- `FieldElement::invert` of `field_secq.rs`, l. 797–845: an addition chain.
`is_zero` (l. 433–435) is `ct_eq(ZERO)`. -/
def invertQ (M : MParams) (a : Limbs) : Option Limbs :=
  let x1 := a
  let x10 := M.pow2k a 1
  let x11 := M.mul x10 x1
  let x101 := M.mul x10 x11
  let x111 := M.mul x10 x101
  let x1001 := M.mul x10 x111
  let x1011 := M.mul x10 x1001
  let x1101 := M.mul x10 x1011
  let x6 := M.mul (M.pow2k x1101 2) x1011
  let x8 := M.mul (M.pow2k x6 2) x11
  let x14 := M.mul (M.pow2k x8 6) x6
  let x28 := M.mul (M.pow2k x14 14) x14
  let x56 := M.mul (M.pow2k x28 28) x28
  let res := M.mul (M.pow2k x56 56) x56
  let res := M.mul (M.pow2k res 14) x14
  let res := M.mul (M.pow2k res 3) x101
  let res := M.mul (M.pow2k res 4) x111
  let res := M.mul (M.pow2k res 4) x101
  let res := M.mul (M.pow2k res 5) x1011
  let res := M.mul (M.pow2k res 4) x1011
  let res := M.mul (M.pow2k res 4) x111
  let res := M.mul (M.pow2k res 5) x111
  let res := M.mul (M.pow2k res 6) x1101
  let res := M.mul (M.pow2k res 4) x101
  let res := M.mul (M.pow2k res 3) x111
  let res := M.mul (M.pow2k res 5) x1001
  let res := M.mul (M.pow2k res 6) x101
  let res := M.mul (M.pow2k res 10) x111
  let res := M.mul (M.pow2k res 4) x111
  let res := M.mul (M.pow2k res 9) x8
  let res := M.mul (M.pow2k res 5) x1001
  let res := M.mul (M.pow2k res 6) x1011
  let res := M.mul (M.pow2k res 4) x1101
  let res := M.mul (M.pow2k res 5) x11
  let res := M.mul (M.pow2k res 6) x1101
  let res := M.mul (M.pow2k res 10) x1101
  let res := M.mul (M.pow2k res 4) x1001
  let res := M.mul (M.pow2k res 6) x1
  let res := M.mul (M.pow2k res 8) x6
  if ctEq a zero then none else some res

/-- `Field::sqrt` of `field_secp.rs`, l. 381–399: always `Some`. -/
def sqrtP (M : MParams) (a : Limbs) : Option Limbs :=
  let x2 := M.mul (M.pow2k a 1) a
  let x3 := M.mul (M.pow2k x2 1) a
  let x6 := M.mul (M.pow2k x3 3) x3
  let x9 := M.mul (M.pow2k x6 3) x3
  let x11 := M.mul (M.pow2k x9 2) x2
  let x22 := M.mul (M.pow2k x11 11) x11
  let x44 := M.mul (M.pow2k x22 22) x22
  let x88 := M.mul (M.pow2k x44 44) x44
  let x176 := M.mul (M.pow2k x88 88) x88
  let x220 := M.mul (M.pow2k x176 44) x44
  let x223 := M.mul (M.pow2k x220 3) x3
  let res := M.pow2k (M.mul (M.pow2k (M.mul (M.pow2k x223 23) x22) 6) x2) 2
  some res

/-- The `SqrtRatio` constants.
The trait is `field/mod.rs` l. 14; the impls are `field_secq.rs` l. 210 and `field_secp.rs` l. 213. -/
structure SqrtConsts where
  c1 : Nat
  c3 : Limbs
  c4 : Limbs
  c5 : Limbs
  c6 : Limbs
  c7 : Limbs

/-- `field_secq.rs` l. 213–243. -/
def sqrtConstsQ : SqrtConsts where
  c1 := 6
  c3 := ⟨13822214165235122497, 13451932020343611451, 18446744073709551614, 9079256848778919935, 0⟩
  c4 := ⟨14644223128245760257, 1078510108991852875, 80, 0, 0⟩
  c5 := ⟨411004481505318880, 12260033118033672328, 40, 0, 0⟩
  c6 := ⟨3136031371246777149, 4130463083053389383, 12279052256176627435, 4106525493002347721, 0⟩
  c7 := ⟨18366461224604398165, 46442091185214180, 18426301622747497549, 12927103485658657333, 0⟩

/-- `field_secp.rs` l. 216–246. -/
def sqrtConstsP : SqrtConsts where
  c1 := 1
  c3 := ⟨18446744069414583343, 18446744073709551615, 18446744073709551615, 4611686018427387903, 0⟩
  c4 := paramsP.r
  c5 := paramsP.r
  c6 := ⟨18446744065119615070, 18446744073709551615, 18446744073709551615,
    18446744073709551615, 0⟩
  c7 := ⟨10660218062043021626, 12685808213265501903, 5194980534593283555, 4353995932822220413, 0⟩

/-- The body of the loop of `sqrt_ratio` (`field_secq.rs` l. 266–275) for the loop variable `iv`;
the state is `(tv1, tv3, tv4)` (`tv2` and `tv5` are overwritten before use). -/
def sqrtStep (M : MParams) (iv : Nat) (s : Limbs × Limbs × Limbs) : Limbs × Limbs × Limbs :=
  let (tv1, tv3, tv4) := s
  let two := M.fromU64 2
  let i := M.fromU64 (UInt64.ofNat iv)
  let tv5 := M.sub i two
  let tv5 := M.powBySelf two tv5
  let tv5 := M.powBySelf tv4 tv5
  let e1 := ctEq tv5 M.one
  let tv2 := M.mul tv3 tv1
  let tv1 := M.mul tv1 tv1
  let tv5 := M.mul tv4 tv1
  let tv3 := if e1 then tv3 else tv2
  let tv4 := if e1 then tv4 else tv5
  (tv1, tv3, tv4)

/-- The loop of `sqrt_ratio` (`field_secq.rs` l. 265–276), for `i = n + 1, …, 2`. -/
def sqrtLoop (M : MParams) (n : Nat) (s : Limbs × Limbs × Limbs) : Limbs :=
  ((List.range n).reverse.foldl (fun s i => M.sqrtStep (i + 2) s) s).2.1

/-- `sqrt_ratio`, `field_secq.rs` l. 246–279, `field_secp.rs` l. 248–281. -/
def sqrtRatio (M : MParams) (C : SqrtConsts) (u v : Limbs) : Bool × Limbs :=
  let tv1 := C.c6
  let tv2 := M.powBySelf v C.c4
  let tv3 := M.powBySelf tv2 (M.fromU64 2)
  let tv3 := M.mul tv3 v
  let tv5 := M.mul u tv3
  let tv5 := M.powBySelf tv5 C.c3
  let tv5 := M.mul tv5 tv2
  let tv2 := M.mul tv5 v
  let tv3 := M.mul tv5 u
  let tv4 := M.mul tv3 tv2
  let tv5 := M.powBySelf tv4 C.c5
  let isQr := ctEq tv5 M.one
  let tv2 := M.mul tv3 C.c7
  let tv5 := M.mul tv4 tv1
  let tv3 := if isQr then tv3 else tv2
  let tv4 := if isQr then tv4 else tv5
  (isQr, M.sqrtLoop (C.c1 - 1) (tv1, tv3, tv4))

/-- `map_to_curve_simple_swu`, `hashtocurve.rs` l. 42–76.  `invert` is the field's inversion;
`none.unwrap()` is a panic. -/
def mapToCurve (M : MParams) (C : SqrtConsts) (invert : Limbs → Option Limbs)
    (u a b z : Limbs) : Out (Limbs × Limbs) :=
  let tv1 := M.mul u u
  let tv1 := M.mul z tv1
  let tv2 := M.mul tv1 tv1
  let tv2 := M.add tv2 tv1
  let tv3 := M.add tv2 M.one
  let tv3 := M.mul b tv3
  let tv4 := if ctEq tv2 zero then z else M.neg tv2
  let tv4 := M.mul a tv4
  let tv2 := M.mul tv3 tv3
  let tv6 := M.mul tv4 tv4
  let tv5 := M.mul a tv6
  let tv2 := M.add tv2 tv5
  let tv2 := M.mul tv2 tv3
  let tv6 := M.mul tv6 tv4
  let tv5 := M.mul b tv6
  let tv2 := M.add tv2 tv5
  let x := M.mul tv1 tv3
  let (isSq, y1) := M.sqrtRatio C tv2 tv6
  let y := M.mul tv1 u
  let y := M.mul y y1
  let x := if isSq then tv3 else x
  let y := if isSq then y1 else y
  let y := if M.isOdd u == M.isOdd y then y else M.neg y
  match invert tv4 with
  | none => .error .panic
  | some d => .ok (M.mul x d, y)

/-- `iso_map`, `hashtocurve.rs` l. 24–39, with the thirteen constants as a list. -/
def isoMap (M : MParams) (invert : Limbs → Option Limbs) (x y : Limbs) (k : List Limbs) :
    Out (Limbs × Limbs) :=
  let k (i : Nat) : Limbs := k.getD i zero
  let x2 := M.pow x 2 0 0 0
  let x3 := M.mul x2 x
  let xNum := M.add (M.add (M.add (M.mul (k 0) x3) (M.mul (k 1) x2)) (M.mul (k 2) x)) (k 3)
  let xDen := M.add (M.add x2 (M.mul (k 4) x)) (k 5)
  match invert xDen with
  | none => .error .panic
  | some xi =>
    let xf := M.mul xNum xi
    let yNum := M.add (M.add (M.add (M.mul (k 6) x3) (M.mul (k 7) x2)) (M.mul (k 8) x)) (k 9)
    let yDen := M.add (M.add (M.add x3 (M.mul (k 10) x2)) (M.mul (k 11) x)) (k 12)
    match invert yDen with
    | none => .error .panic
    | some yi => .ok (xf, M.mul y (M.mul yNum yi))

/-- `hash_to_curve`, `hashtocurve.rs` l. 5–21. -/
def hashToCurve (M : MParams) (C : SqrtConsts) (invert : Limbs → Option Limbs)
    (u1 u2 a b z : Limbs) (k : List Limbs) : Out ((Limbs × Limbs) × (Limbs × Limbs)) := do
  let q1 ← M.mapToCurve C invert u1 a b z
  let q2 ← M.mapToCurve C invert u2 a b z
  let p1 ← M.isoMap invert q1.1 q1.2 k
  let p2 ← M.isoMap invert q2.1 q2.2 k
  pure (p1, p2)

end MParams

/-- `AffinePoint::iso_a`, `affine.rs` l. 97–106. -/
def isoA : Limbs :=
  ⟨13132896970247110882, 16600479225705962415, 2267171952686981219, 10308142380130580469, 0⟩

/-- `AffinePoint::iso_b`, `affine.rs` l. 108–111. -/
def isoB : Limbs := ⟨18134843254882603861, 9821735204204806823, 2250, 0, 0⟩

/-- `AffinePoint::iso_z`, `affine.rs` l. 113–121. -/
def isoZ : Limbs :=
  ⟨4419027667721769679, 17311539568058655616, 18446744073709551596, 18446744073709551615, 0⟩

/-- `AffinePoint::iso_constants`, `affine.rs` l. 124–205. -/
def isoConstants : List Limbs := [
  paramsQ.fromRaw 7679007869575068054 9522933797269734319 16397105843297379213 10248191152060862008,
  paramsQ.fromRaw 9826996953646961554 15182850926035153421 14578491762904662818
    12647934416601614380,
  paramsQ.fromRaw 12837744973953074055 3022921441994356503 9226076221592167090 5322610924144458968,
  paramsQ.fromRaw 7679007869575068113 9522933797269734319 16397105843297379213 10248191152060862008,
  paramsQ.fromRaw 5509687591411919004 593833991126057235 2079217350175104065 3150945307157219731,
  paramsQ.fromRaw 10055942181862970998 5902098865151897053 9296385024764340435 14583286435933530837,
  paramsQ.fromRaw 1018159320366879645 7658288605871115257 17763531330238827481 9564978408590137874,
  paramsQ.fromRaw 14136870513678256585 7591425463017576710 7289245881452331409 6323967208300807190,
  paramsQ.fromRaw 14802773332216597422 16078857340678580677 3084372689655359971 1069495981486797935,
  paramsQ.fromRaw 2553960894281893207 13252224180066972444 13664254869414482677
    11614616639002310276,
  paramsQ.fromRaw 17487903423972654314 10114123023543861660 12342198062117431905
    4726417960735829596,
  paramsQ.fromRaw 2523398215118668000 9249176628478019873 9442411000583469692 6856371160381489280,
  paramsQ.fromRaw 13822214165235121741 13451932020343611451 18446744073709551614
    18446744073709551615]

/-- The two decoded coordinate pairs of `AffinePoint::from_uniform_bytes`, `affine.rs` l. 215–242,
before the addition.  `decompress` of an uncompressed encoding (`from_encoded_point` of the
`primeorder` crate) is the parameter `decode`, applied to the big-endian coordinates;
`unwrap` of a failed decoding is a panic.  The final `p1 + p2` is the group addition of the
`primeorder` crate, the parameter `add`. -/
def fromUniformBytes {P : Type} (decode : List UInt8 → List UInt8 → Option P) (add : P → P → P)
    (bytes : List UInt8) : Out P := do
  let r ← paramsQ.hashToCurve MParams.sqrtConstsQ paramsQ.invertQ
    (paramsQ.fromBytesWide (bytes.take 64)) (paramsQ.fromBytesWide (bytes.drop 64))
    isoA isoB isoZ isoConstants
  match decode (paramsQ.toBeBytes r.1.1) (paramsQ.toBeBytes r.1.2) with
  | none => .error .panic
  | some p1 =>
    match decode (paramsQ.toBeBytes r.2.1) (paramsQ.toBeBytes r.2.2) with
    | none => .error .panic
    | some p2 => .ok (add p1 p2)

end Spartan
