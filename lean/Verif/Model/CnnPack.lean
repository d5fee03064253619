import Verif.Base.Go
import Mathlib.Data.Complex.Basic

set_option autoImplicit false

/-!
# How the encrypted neural network's inputs are packed into slots (cnn/cnn_test.go:353-545)

A slice of complex numbers of length `n` is a function with `n` remembered in the operations that index it; an index outside faults. The data (images,
kernels, weights, biases) are read from files into slices of the sizes of cnn_test.go:243-345; reading the files is not modelled. Complex floats are
complex numbers (the loops only move them).
-/

namespace MKHE.Cnn

/-- a slice of complex numbers -/
abbrev Arr := ℕ → ℂ

/-- `make([]complex128, n)` -/
def zeros : Arr := fun _ => 0

/-- `a[i] = v` for a slice of length `n` -/
def put (n : ℕ) (a : Arr) (i : ℕ) (v : ℂ) : Go Arr := if i < n then .ok (Function.update a i v) else .error .indexOutOfRange

/-- `a[i]` -/
def get (n : ℕ) (a : Arr) (i : ℕ) : Go ℂ := if i < n then .ok (a i) else .error .indexOutOfRange

/-- `a[i][j]` of `n` slices of length `m` -/
def get2 (n m : ℕ) (a : ℕ → ℕ → ℂ) (i j : ℕ) : Go ℂ := if i < n ∧ j < m then .ok (a i j) else .error .indexOutOfRange

/-- `a[i][j][k]` of kernels (5 × 4 × 4) -/
def get3 (a : ℕ → ℕ → ℕ → ℂ) (i j k : ℕ) : Go ℂ := if i < 5 ∧ j < 4 ∧ k < 4 then .ok (a i j k) else .error .indexOutOfRange

/-- the network's data: an image 28 × 28, kernels 5 × 4 × 4, `FC1` 845 × 64, `FC2` 64 × 10, `B1` 64, `B2` 10 (cnn_test.go:234-345) -/
structure Data where
  image : ℕ → ℕ → ℂ
  kernel : ℕ → ℕ → ℕ → ℂ
  fc1 : ℕ → ℕ → ℂ
  fc2 : ℕ → ℕ → ℂ
  b1 : ℕ → ℂ
  b2 : ℕ → ℂ

/-- body of the inner loop of `encryptImage` (cnn_test.go:360-370) -/
def imageStep (im : ℕ → ℕ → ℂ) (k i : ℕ) (e : Arr) (j : ℕ) : Go Arr := do
  let index := 14 * 14 * k + 14 * i + j
  let v ← get2 28 28 im (2 * i) (2 * j)
  let e ← put 8192 e index v
  let index := index + 1024
  let v ← get2 28 28 im (2 * i) (2 * j + 1)
  let e ← put 8192 e index v
  let index := index + 1024
  let v ← get2 28 28 im (2 * i + 1) (2 * j)
  let e ← put 8192 e index v
  let index := index + 1024
  let v ← get2 28 28 im (2 * i + 1) (2 * j + 1)
  put 8192 e index v

/-- `for i := 0; i < 4096; i++ { e[i+4096] = e[i] }` (cnn_test.go:375-377, 426-428) -/
def duplicate (e : Arr) : Go Arr :=
  Go.loop (fun (e : Arr) (i : ℕ) => do
    let v ← get 8192 e i
    put 8192 e (i + 4096) v) e (List.range 4096)

/-- the message of `encryptImage` (cnn_test.go:353-379) -/
def packImage (im : ℕ → ℕ → ℂ) : Go Arr := do
  let e ← Go.loop (fun (e : Arr) (k : ℕ) => Go.loop (fun (e : Arr) (i : ℕ) => Go.loop (imageStep im k i) e (List.range 14)) e (List.range 14))
    zeros (List.range 5)
  duplicate e

/-- four assignments `encodedKernels[t][index] = kernels[i][y + 2 * (t / 2)][x + 2 * (t % 2)]` as they are written out
(cnn_test.go:399-402, 405-408, 411-414, 417-420) -/
def kernelPuts (ker : ℕ → ℕ → ℕ → ℂ) (i y x index : ℕ) (e : Arr × Arr × Arr × Arr) : Go (Arr × Arr × Arr × Arr) := do
  let v ← get3 ker i y x
  let e0 ← put 8192 e.1 index v
  let v ← get3 ker i y (x + 2)
  let e1 ← put 8192 e.2.1 index v
  let v ← get3 ker i (y + 2) x
  let e2 ← put 8192 e.2.2.1 index v
  let v ← get3 ker i (y + 2) (x + 2)
  let e3 ← put 8192 e.2.2.2 index v
  .ok (e0, e1, e2, e3)

/-- body of the inner loop of `encryptKernels` (cnn_test.go:398-420) -/
def kernelStep (ker : ℕ → ℕ → ℕ → ℂ) (i j : ℕ) (e : Arr × Arr × Arr × Arr) (k : ℕ) : Go (Arr × Arr × Arr × Arr) := do
  let index := 14 * 14 * i + 14 * j + k
  let e ← kernelPuts ker i 0 0 index e
  let index := index + 1024
  let e ← kernelPuts ker i 0 1 index e
  let index := index + 1024
  let e ← kernelPuts ker i 1 0 index e
  let index := index + 1024
  kernelPuts ker i 1 1 index e

/-- the messages of `encryptKernels` (cnn_test.go:388-436) -/
def packKernels (ker : ℕ → ℕ → ℕ → ℂ) : Go (List Arr) := do
  let e ← Go.loop (fun (e : Arr × Arr × Arr × Arr) (i : ℕ) => Go.loop (fun (e : Arr × Arr × Arr × Arr) (j : ℕ) =>
    Go.loop (kernelStep ker i j) e (List.range 13)) e (List.range 13)) (zeros, zeros, zeros, zeros) (List.range 5)
  let e0 ← duplicate e.1
  let e1 ← duplicate e.2.1
  let e2 ← duplicate e.2.2.1
  let e3 ← duplicate e.2.2.2
  .ok [e0, e1, e2, e3]

/-- `a[l][index] = v` for 64 slices of length 1024 -/
def put2 (a : ℕ → Arr) (l index : ℕ) (v : ℂ) : Go (ℕ → Arr) := do
  if l < 64 then
    let r ← put 1024 (a l) index v
    .ok (Function.update a l r)
  else .error .indexOutOfRange

/-- `tempFC1` (cnn_test.go:445-465) -/
def tempFC1 (fc1 : ℕ → ℕ → ℂ) : Go (ℕ → Arr) :=
  Go.loop (fun (t : ℕ → Arr) (i : ℕ) => Go.loop (fun (t : ℕ → Arr) (j : ℕ) => Go.loop (fun (t : ℕ → Arr) (k : ℕ) =>
    Go.loop (fun (t : ℕ → Arr) (l : ℕ) => do
      let v ← get2 845 64 fc1 (i + 5 * (j * 13 + k)) l
      put2 t l (14 * 14 * i + 14 * j + k) v) t (List.range 64)) t (List.range 13)) t (List.range 13)) (fun _ => zeros) (List.range 5)

/-- `encodedFC1[i]` (cnn_test.go:468-474) -/
def packDiagonal (t : ℕ → Arr) (i : ℕ) : Go Arr :=
  Go.loop (fun (e : Arr) (j : ℕ) => Go.loop (fun (e : Arr) (k : ℕ) => do
    let v ← get2 64 1024 t j (128 * ((i + j) % 8) + k)
    put 8192 e (128 * j + k) v) e (List.range 128)) zeros (List.range 64)

/-- the messages of `encryptFC1` (cnn_test.go:443-486) -/
def packFC1 (fc1 : ℕ → ℕ → ℂ) : Go (List Arr) := do
  let t ← tempFC1 fc1
  Go.loop (fun (w : List Arr) (i : ℕ) => do
    let e ← packDiagonal t i
    .ok (w ++ [e])) [] (List.range 8)

/-- the message of `encryptFC2` (cnn_test.go:488-510); `slots` is `params.Slots()` -/
def packFC2 (slots : ℕ) (fc2 : ℕ → ℕ → ℂ) : Go Arr :=
  Go.loop (fun (e : Arr) (i : ℕ) => do
    let x := i / 128
    let y := i % 128
    if y < 10 ∧ x < 64 then
      let v ← get2 64 10 fc2 x y
      put slots e i v
    else .ok e) zeros (List.range slots)

/-- the message of `encryptB1` (cnn_test.go:512-527) -/
def packB1 (slots : ℕ) (b : ℕ → ℂ) : Go Arr :=
  Go.loop (fun (e : Arr) (i : ℕ) => do
    let v ← get 64 b i
    put slots e (i * 128) v) zeros (List.range 64)

/-- the message of `encryptB2` (cnn_test.go:529-544) -/
def packB2 (slots : ℕ) (b : ℕ → ℂ) : Go Arr :=
  Go.loop (fun (e : Arr) (i : ℕ) => do
    let v ← get 10 b i
    put slots e i v) zeros (List.range 10)

/-- the mask, `for i := 0; i < numSlots; i += 128 { mask[i] = 1 }` (cnn_test.go:142-146) -/
def packMask (slots : ℕ) : Go Arr :=
  Go.loop (fun (e : Arr) (i : ℕ) => put slots e (128 * i) 1) zeros (List.range ((slots + 127) / 128))

/-- the class the client reads off the decrypted message: `maxIndex := -1; maxValue := -100.0; for i := 0; i < 10; i++ { if real(value[i]) > maxValue
{ … } }` (cnn_test.go:167-174), on exact numbers -/
noncomputable def argmax (value : ℕ → ℂ) : ℤ :=
  ((List.range 10).foldl (fun (w : ℤ × ℝ) (i : ℕ) => if w.2 < (value i).re then ((i : ℤ), (value i).re) else w) (-1, -100)).1

end MKHE.Cnn
