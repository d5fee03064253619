import Verif.Model.Ckks

set_option autoImplicit false

/-!
# The encrypted neural network (cnn/cnn.go, cnn/cnn_test.go)

The layers of cnn/cnn.go call by call on the model of the CKKS evaluator. `o` gives the map iteration orders of every call (indexed by the place of
the call in the code); the evaluator's memory `E` and, where it is written, the relinearization key set with its pools are threaded through.
-/

namespace MKHE.Cnn
variable {N : ℕ} [NeZero N] {C : Ctx N}

/-- what the layers are given besides ciphertexts: the default scale, the common reference strings and the rotation key set (`rtkSet`); `mredPsi` is
the Montgomery word of `MultByConst`, of no effect here -/
structure Env (C : Ctx N) where
  pscale : ℚ
  crs : GoMap ℤ (Swk C)
  rks : RotKeySet (GalKey C)
  mredPsi : ℕ → ℕ → ℕ

/-- iteration orders: a number for the statement, one for the call in it, one for the map -/
abbrev Ord := ℕ → ℕ → ℕ → Sched String

/-- `l[i]` of a slice -/
def index {α : Type*} (l : List α) (i : ℕ) : Go α :=
  match l[i]? with
  | some a => .ok a
  | none => .error .indexOutOfRange

/-- mkckks `Ciphertext.CopyNew` (mkckks/elements.go:29-32) -/
def copyNew (o : Order String) (ct : CCt C) : Go (CCt C) := do
  let c ← ct.ct.copyNew o
  .ok ⟨c, ct.scale⟩

/-- `temp = RotateHoistedNew(ct, r, ctHoisted); tempHoisted = HoistedForm(temp); temp = MulRelinHoistedNew(temp, ker, tempHoisted, kerHoisted)`
(cnn.go:18-20, 23-25, 28-30, 53-55) -/
noncomputable def rotMul (K : Env C) (o : ℕ → ℕ → Sched String) (rlk : RlkMap C) (E : Eval C) (ct : CCt C) (r : ℤ) (h : HoistedCt C) (ker : CCt C)
    (kerH : HoistedCt C) : Go (CCt C × Eval C) := do
  let t ← ckksRotateHoistedNew K.crs (o 0) E ct r h K.rks
  let m ← hoistedForm (o 1 0) t.2.ksw t.1.ct
  ckksMulRelinHoistedNew K.pscale K.crs (o 2 0) { t.2 with ksw := m.2 } t.1 ker (some m.1) (some kerH) rlk

/-- `temp = RotateNew(x, r); x = AddNew(x, temp)` (cnn.go:33-34, 36-37, 65-66, 84-85, 92-93) -/
noncomputable def rotAdd (K : Env C) (o : ℕ → ℕ → Sched String) (E : Eval C) (x : CCt C) (r : ℤ) : Go (CCt C × Eval C) := do
  let t ← ckksRotateNew K.crs (o 0) E x r K.rks
  ckksAddNew K.mredPsi (o 1 0) t.2 x t.1

/-- `for i := 0; i < logn; i++ { temp = RotateNew(x, step * (1<<i)); x = AddNew(x, temp) }` (cnn.go:64-67, 83-86, 91-94) -/
noncomputable def rotAddLoop (K : Env C) (o : Ord) (step : ℤ) (logn : ℕ) (w : CCt C × Eval C) : Go (CCt C × Eval C) :=
  Go.loop (fun (w : CCt C × Eval C) (i : ℕ) => rotAdd K (o i) w.2 w.1 (step * 2 ^ i)) w (List.range logn)

/-- `temp` as in `rotMul`, then `convOut = AddNew(convOut, temp)` (cnn.go:18-21, 23-26, 28-31) -/
noncomputable def convTap (K : Env C) (o : ℕ → ℕ → Sched String) (rlk : RlkMap C) (img : CCt C) (imgH : HoistedCt C) (kers : List (CCt C))
    (kerHs : List (HoistedCt C)) (k : ℕ) (r : ℤ) (c : CCt C × Eval C) : Go (CCt C × Eval C) := do
  let ker ← index kers k
  let kerH ← index kerHs k
  let t ← rotMul K o rlk c.2 img r imgH ker kerH
  ckksAddNew K.mredPsi (o 3 0) t.2 c.1 t.1

/-- `Convolution` (cnn.go:10-40) -/
noncomputable def convolution (K : Env C) (o : Ord) (rlk : RlkMap C) (E : Eval C) (img : CCt C) (imgH : HoistedCt C) (kers : List (CCt C))
    (kerHs : List (HoistedCt C)) : Go (CCt C × Eval C) := do
  let ker ← index kers 0
  let kerH ← index kerHs 0
  let c ← ckksMulRelinHoistedNew K.pscale K.crs (o 0 0 0) E img ker (some imgH) (some kerH) rlk
  let c ← convTap K (o 1) rlk img imgH kers kerHs 1 1 c
  let c ← convTap K (o 2) rlk img imgH kers kerHs 2 14 c
  let c ← convTap K (o 3) rlk img imgH kers kerHs 3 15 c
  let c ← rotAdd K (o 4) c.2 c.1 2048
  rotAdd K (o 5) c.2 c.1 1024

/-- one pass of the first loop of `FC1Layer` (cnn.go:51-61); `fc1Out` is nil before the first -/
noncomputable def fc1Step (K : Env C) (o : Ord) (rlk : RlkMap C) (vec : CCt C) (vecH : HoistedCt C) (mats : List (CCt C))
    (matHs : List (HoistedCt C)) (w : Option (CCt C) × Eval C) (i : ℕ) : Go (Option (CCt C) × Eval C) := do
  let _temp ← copyNew (o i 4 0 0) vec
  let mat ← index mats i
  let matH ← index matHs i
  let t ← rotMul K (o i) rlk w.2 vec (i * 128) vecH mat matH
  if i = 0 then
    let c ← copyNew (o i 5 0 0) t.1
    .ok (some c, t.2)
  else
    match w.1 with
    | none => .error .nilDeref
    | some c =>
      let s ← ckksAddNew K.mredPsi (o i 3 0) t.2 c t.1
      .ok (some s.1, s.2)

/-- `FC1Layer` (cnn.go:42-71); `int(math.Log2(128)) = 7`. With an empty matrix `fc1Out` stays nil and `RotateNew` dereferences it. -/
noncomputable def fc1Layer (K : Env C) (o : ℕ → Ord) (rlk : RlkMap C) (E : Eval C) (vec : CCt C) (vecH : HoistedCt C) (mats : List (CCt C))
    (matHs : List (HoistedCt C)) (bias : CCt C) : Go (CCt C × Eval C) := do
  let w ← Go.loop (fc1Step K (o 0) rlk vec vecH mats matHs) (none, E) (List.range mats.length)
  match w.1 with
  | none => .error .nilDeref
  | some c =>
    let c ← rotAddLoop K (o 1) 1 7 (c, w.2)
    ckksAddNew K.mredPsi (o 2 0 0 0) c.2 c.1 bias

/-- `FC2Layer` (cnn.go:73-96); `int(math.Log2(16)) = 4`, `int(math.Log2(64)) = 6`. The mask is a plaintext and its scale; the two arguments of
`MulRelinNew` are different objects. -/
noncomputable def fc2Layer (K : Env C) (o : ℕ → Ord) (rlk : RlkMap C) (E : Eval C) (vec mat bias : CCt C) (mask : Poly C × ℚ) :
    Go (CCt C × Eval C × RlkMap C) := do
  let x ← mulPtxtNew K.pscale (o 0 0 0 0) E vec mask.1 mask.2
  let x ← rotAddLoop K (o 1) (-1) 4 x
  let y ← ckksMulRelinNew K.pscale K.crs (o 2 0 0 0) x.2 false x.1 mat rlk
  let z ← rotAddLoop K (o 3) 128 6 (y.1, y.2.1)
  let r ← ckksAddNew K.mredPsi (o 4 0 0 0) z.2 z.1 bias
  .ok (r.1, r.2, y.2.2)

/-- `convOutHoisted := HoistedForm(convOut); square := MulRelinHoistedNew(convOut, convOut, convOutHoisted, convOutHoisted)`
(cnn_test.go:154-155, 159-160) -/
noncomputable def square (K : Env C) (o : ℕ → ℕ → Sched String) (rlk : RlkMap C) (E : Eval C) (x : CCt C) : Go (CCt C × Eval C) := do
  let h ← hoistedForm (o 0 0) E.ksw x.ct
  ckksMulRelinHoistedNew K.pscale K.crs (o 1 0) { E with ksw := h.2 } x x (some h.1) (some h.1) rlk

/-- `for i := range hs { hs[i] = HoistedForm(cts[i]) }` (cnn_test.go:133-140) -/
noncomputable def hoistAll (o : Ord) (E : Eval C) (cts : List (CCt C)) : Go (List (HoistedCt C) × Eval C) :=
  Go.loop (fun (w : List (HoistedCt C) × Eval C) (i : ℕ) => do
    let ct ← index cts i
    let h ← hoistedForm (o i 0 0) w.2.ksw ct.ct
    .ok (w.1 ++ [h.1], { w.2 with ksw := h.2 })) ([], E) (List.range cts.length)

/-- the evaluation of the network (cnn_test.go:132-140, 152-162) -/
noncomputable def forward (K : Env C) (o : ℕ → ℕ → Ord) (rlk : RlkMap C) (E : Eval C) (img : CCt C) (kers mats : List (CCt C))
    (fc2 b1 b2 : CCt C) (mask : Poly C × ℚ) : Go (CCt C × Eval C × RlkMap C) := do
  let ih ← hoistedForm (o 0 0 0 0 0) E.ksw img.ct
  let kh ← hoistAll (o 1 0) { E with ksw := ih.2 } kers
  let mh ← hoistAll (o 2 0) kh.2 mats
  let c ← convolution K (o 3 0) rlk mh.2 img ih.1 kers kh.1
  let s ← square K (o 4 0 0) rlk c.2 c.1
  let sh ← hoistedForm (o 5 0 0 0 0) s.2.ksw s.1.ct
  let f ← fc1Layer K (o 6) rlk { s.2 with ksw := sh.2 } s.1 sh.1 mats mh.1 b1
  let t ← square K (o 7 0 0) rlk f.2 f.1
  fc2Layer K (o 8) rlk t.2 t.1 fc2 b2 mask

end MKHE.Cnn
