import Verif.Model.CnnPack
import Verif.Base.Nega
import Mathlib.Tactic.Ring
import Mathlib.Tactic.IntervalCases

set_option autoImplicit false

/-!
# What the packing loops of the encrypted neural network leave in the slices
-/

namespace MKHE.Cnn

theorem gbind_ok {α β : Type} (a : α) (f : α → Go β) : ((.ok a : Go α) >>= f) = f a := rfl

/-- `g` succeeds, leaves `f p` at the places `p` of `D` and changes nothing else; `rd` reads a place of the state -/
def Wr {σ ι : Type} (rd : σ → ι → ℂ) (g : σ → Go σ) (D : ι → Prop) (f : ι → ℂ) : Prop :=
  ∀ e, ∃ e', g e = .ok e' ∧ ∀ p, (D p → rd e' p = f p) ∧ (¬ D p → rd e' p = rd e p)

theorem Wr.mono {σ ι : Type} {rd : σ → ι → ℂ} {g : σ → Go σ} {D D' : ι → Prop} {f : ι → ℂ} (h : Wr rd g D f) (he : ∀ p, D p ↔ D' p) :
    Wr rd g D' f := by
  have : D = D' := funext fun p => propext (he p)
  rwa [← this]

theorem Wr.seq {σ ι : Type} {rd : σ → ι → ℂ} {g g' : σ → Go σ} {D D' : ι → Prop} {f : ι → ℂ} (h : Wr rd g D f) (h' : Wr rd g' D' f) :
    Wr rd (fun e => g e >>= g') (fun p => D p ∨ D' p) f := fun e => by
  obtain ⟨e1, a1, a2⟩ := h e
  obtain ⟨e2, b1, b2⟩ := h' e1
  refine ⟨e2, by show (g e >>= g') = _; rw [a1, gbind_ok, b1], fun p => ⟨fun hp => ?_, fun hp => ?_⟩⟩
  · by_cases hd : D' p
    · exact (b2 p).1 hd
    · rw [(b2 p).2 hd]
      exact (a2 p).1 (hp.resolve_right hd)
  · push Not at hp
    rw [(b2 p).2 hp.2, (a2 p).2 hp.1]

theorem Wr.loop {σ ι α : Type} {rd : σ → ι → ℂ} {body : σ → α → Go σ} {D : α → ι → Prop} {f : ι → ℂ} (l : List α)
    (h : ∀ x ∈ l, Wr rd (fun e => body e x) (D x) f) : Wr rd (fun e => Go.loop body e l) (fun p => ∃ x ∈ l, D x p) f := by
  induction l with
  | nil => exact fun e => ⟨e, rfl, fun p => ⟨fun hp => by simp at hp, fun _ => rfl⟩⟩
  | cons x l ih =>
    have h1 := (h x (by simp)).seq (ih fun y hy => h y (by simp [hy]))
    have h2 : Wr rd (fun e => Go.loop body e (x :: l)) _ f := fun e => by
      obtain ⟨e', g1, g2⟩ := h1 e
      refine ⟨e', ?_, g2⟩
      rw [← g1]
      show Go.loop body e (x :: l) = (body e x >>= fun e => Go.loop body e l)
      rw [Go.loop_cons]
      cases body e x <;> rfl
    exact h2.mono fun p => by simp

theorem Wr.range {σ ι : Type} {rd : σ → ι → ℂ} {body : σ → ℕ → Go σ} {D : ℕ → ι → Prop} {f : ι → ℂ} {n : ℕ}
    (h : ∀ x < n, Wr rd (fun e => body e x) (D x) f) : Wr rd (fun e => Go.loop body e (List.range n)) (fun p => ∃ x < n, D x p) f :=
  (Wr.loop (List.range n) fun x hx => h x (List.mem_range.mp hx)).mono fun p => by simp [List.mem_range]

theorem Wr.put {n i : ℕ} {v : ℂ} {f : Arr} (hi : i < n) (hv : f i = v) : Wr (fun e : Arr => e) (fun e => put n e i v) (fun p => p = i) f :=
  fun e => by
  refine ⟨Function.update e i v, by simp [Cnn.put, hi], fun p => ⟨fun hp => ?_, fun hp => ?_⟩⟩
  · subst hp; simp [hv]
  · simp [hp]

theorem get2_ok {n m i j : ℕ} (a : ℕ → ℕ → ℂ) (hi : i < n) (hj : j < m) : get2 n m a i j = .ok (a i j) := by simp [get2, hi, hj]
theorem get3_ok {i j k : ℕ} (a : ℕ → ℕ → ℕ → ℂ) (hi : i < 5) (hj : j < 4) (hk : k < 4) : get3 a i j k = .ok (a i j k) := by simp [get3, hi, hj, hk]

/-- slices are read inside their bounds or not at all -/
theorem get_bounds {n i : ℕ} {a : Arr} {x : ℂ} : get n a i = .ok x ↔ i < n ∧ a i = x := by
  unfold get; split <;> simp_all

theorem get2_bounds {n m i j : ℕ} {a : ℕ → ℕ → ℂ} {x : ℂ} : get2 n m a i j = .ok x ↔ (i < n ∧ j < m) ∧ a i j = x := by
  unfold get2; split <;> simp_all

theorem get3_bounds {i j k : ℕ} {a : ℕ → ℕ → ℕ → ℂ} {x : ℂ} : get3 a i j k = .ok x ↔ (i < 5 ∧ j < 4 ∧ k < 4) ∧ a i j k = x := by
  unfold get3; split <;> simp_all
theorem get_ok {n i : ℕ} (a : Arr) (hi : i < n) : get n a i = .ok (a i) := by simp [get, hi]

/-- the second copy of a slice of 8192 -/
theorem duplicate_ok (e : Arr) : ∃ e', duplicate e = .ok e' ∧ ∀ p < 8192, e' p = e (p % 4096) := by
  obtain ⟨e', h1, h2⟩ := Go.loop_inv (fun (e : Arr) (i : ℕ) => (do
    let v ← get 8192 e i
    put 8192 e (i + 4096) v : Go Arr)) (fun pre e' => ∀ p, e' p = if 4096 ≤ p ∧ p < 4096 + pre.length then e (p - 4096) else e p)
    (List.range 4096) e (fun p => by rw [if_neg]; simp only [List.length_nil]; omega)
    (by
      intro pre i suf s he hI
      have hlen := congrArg List.length he
      have hi : i = pre.length := by
        have h3 : (List.range 4096)[pre.length]? = some i := by rw [he]; simp
        rw [List.length_range, List.length_append, List.length_cons] at hlen
        rw [List.getElem?_range (by omega)] at h3
        simpa using h3.symm
      rw [List.length_range, List.length_append, List.length_cons] at hlen
      refine ⟨Function.update s (i + 4096) (s i), ?_, fun p => ?_⟩
      · rw [get_ok _ (by omega), gbind_ok, put, if_pos (by omega)]
      · rw [List.length_append, List.length_singleton]
        by_cases hp : p = i + 4096
        · subst hp
          rw [Function.update_self, if_pos (by omega), hI i, if_neg (by omega)]
          rw [Nat.add_sub_cancel]
        · rw [Function.update_of_ne hp, hI p]
          by_cases h : 4096 ≤ p ∧ p < 4096 + pre.length
          · rw [if_pos h, if_pos (by omega)]
          · rw [if_neg h, if_neg (by omega)])
  refine ⟨e', h1, fun p hp => ?_⟩
  rw [h2 p, List.length_range]
  by_cases h : 4096 ≤ p
  · rw [if_pos ⟨h, by omega⟩, show p - 4096 = p % 4096 by omega]
  · rw [if_neg (by omega), Nat.mod_eq_of_lt (by omega)]

/-! ## the image -/

/-- the image in the slots of one of the two copies -/
def imageAt (im : ℕ → ℕ → ℂ) (p : ℕ) : ℂ :=
  im (2 * (p % 1024 % 196 / 14) + p / 1024 / 2) (2 * (p % 1024 % 14) + p / 1024 % 2)

theorem imageStep_ok (im : ℕ → ℕ → ℂ) {k i j : ℕ} (hk : k < 5) (hi : i < 14) (hj : j < 14) :
    Wr (fun e : Arr => e) (fun e => imageStep im k i e j) (fun p => ∃ q < 4, p = 1024 * q + (196 * k + 14 * i + j)) (imageAt im) := by
  have ev : ∀ q y x, q < 4 → y = q / 2 → x = q % 2 → ∀ idx, idx = 1024 * q + (196 * k + 14 * i + j) →
      imageAt im idx = im (2 * i + y) (2 * j + x) := by
    intro q y x hq hy hx idx hidx
    have e1 : idx % 1024 = 196 * k + 14 * i + j := by omega
    have e2 : idx / 1024 = q := by omega
    unfold imageAt
    rw [e1, e2]
    rw [show (196 * k + 14 * i + j) % 196 / 14 = i by omega, show (196 * k + 14 * i + j) % 14 = j by omega, hy, hx]
  have h := (Wr.put (n := 8192) (i := 14 * 14 * k + 14 * i + j) (by omega) (ev 0 0 0 (by omega) rfl rfl _ (by omega))).seq
    ((Wr.put (n := 8192) (i := 14 * 14 * k + 14 * i + j + 1024) (by omega) (ev 1 0 1 (by omega) rfl rfl _ (by omega))).seq
    ((Wr.put (n := 8192) (i := 14 * 14 * k + 14 * i + j + 1024 + 1024) (by omega) (ev 2 1 0 (by omega) rfl rfl _ (by omega))).seq
    (Wr.put (n := 8192) (i := 14 * 14 * k + 14 * i + j + 1024 + 1024 + 1024) (by omega) (ev 3 1 1 (by omega) rfl rfl _ (by omega)))))
  have h' := h.mono (D' := fun p => ∃ q < 4, p = 1024 * q + (196 * k + 14 * i + j)) fun p => by
    constructor
    · rintro (h | h | h | h)
      · exact ⟨0, by omega, by omega⟩
      · exact ⟨1, by omega, by omega⟩
      · exact ⟨2, by omega, by omega⟩
      · exact ⟨3, by omega, by omega⟩
    · rintro ⟨q, hq, h⟩
      interval_cases q
      · left; omega
      · right; left; omega
      · right; right; left; omega
      · right; right; right; omega
  intro e
  obtain ⟨e', g1, g2⟩ := h' e
  refine ⟨e', ?_, g2⟩
  rw [← g1]
  unfold imageStep
  simp only [get2_ok im (show 2 * i < 28 by omega) (show 2 * j < 28 by omega), get2_ok im (show 2 * i < 28 by omega) (show 2 * j + 1 < 28 by omega),
    get2_ok im (show 2 * i + 1 < 28 by omega) (show 2 * j < 28 by omega), get2_ok im (show 2 * i + 1 < 28 by omega) (show 2 * j + 1 < 28 by omega),
    gbind_ok]
  rfl

theorem packImage_ok (im : ℕ → ℕ → ℂ) :
    ∃ e, packImage im = .ok e ∧ ∀ p < 8192, e p = if p % 1024 < 980 then imageAt im (p % 4096) else 0 := by
  obtain ⟨e, h1, h2⟩ := (Wr.range (n := 5) fun k hk => Wr.range (n := 14) fun i hi => Wr.range (n := 14) fun j hj =>
    imageStep_ok im hk hi hj) zeros
  obtain ⟨e', d1, d2⟩ := duplicate_ok e
  refine ⟨e', ?_, fun p hp => ?_⟩
  · unfold packImage
    dsimp only at h1
    rw [h1, gbind_ok, d1]
  · rw [d2 p hp]
    by_cases h : p % 1024 < 980
    · rw [if_pos h]
      refine (h2 _).1 ⟨p % 1024 / 196, by omega, p % 1024 % 196 / 14, by omega, p % 1024 % 14, by omega, p % 4096 / 1024, by omega, ?_⟩
      omega
    · rw [if_neg h]
      refine (h2 _).2 ?_
      rintro ⟨k, hk, i, hi, j, hj, q, hq, e⟩
      have h3 : p % 4096 % 1024 = 196 * k + 14 * i + j := by omega
      have h4 : p % 4096 % 1024 = p % 1024 := Nat.mod_mod_of_dvd _ (by norm_num)
      omega

/-! ## the kernels -/

/-- one of the four slices -/
def sel (e : Arr × Arr × Arr × Arr) (w : ℕ × ℕ) : ℂ :=
  match w.1 with
  | 0 => e.1 w.2
  | 1 => e.2.1 w.2
  | 2 => e.2.2.1 w.2
  | 3 => e.2.2.2 w.2
  | _ => 0

def kernelAt (ker : ℕ → ℕ → ℕ → ℂ) (w : ℕ × ℕ) : ℂ :=
  ker (w.2 % 1024 / 196) (w.2 / 1024 / 2 + 2 * (w.1 / 2)) (w.2 / 1024 % 2 + 2 * (w.1 % 2))

theorem kernelPuts_ok (ker : ℕ → ℕ → ℕ → ℂ) {i y x index q : ℕ} (hi : i < 5) (hq : q < 4) (hy : y = q / 2) (hx : x = q % 2) {r : ℕ} (hr : r < 196)
    (hidx : index = 1024 * q + (196 * i + r)) :
    Wr sel (kernelPuts ker i y x index) (fun w => w.1 < 4 ∧ w.2 = index) (kernelAt ker) := by
  have hlt : index < 8192 := by omega
  have hv : ∀ t < 4, kernelAt ker (t, index) = ker i (y + 2 * (t / 2)) (x + 2 * (t % 2)) := fun t _ => by
    unfold kernelAt
    rw [show index % 1024 / 196 = i by omega, show index / 1024 = q by omega, hy, hx]
  intro e
  refine ⟨(Function.update e.1 index (ker i y x), Function.update e.2.1 index (ker i y (x + 2)), Function.update e.2.2.1 index (ker i (y + 2) x),
    Function.update e.2.2.2 index (ker i (y + 2) (x + 2))), ?_, fun w => ⟨fun hw => ?_, fun hw => ?_⟩⟩
  · unfold kernelPuts
    simp only [get3_ok ker hi (show y < 4 by omega) (show x < 4 by omega), get3_ok ker hi (show y < 4 by omega) (show x + 2 < 4 by omega),
      get3_ok ker hi (show y + 2 < 4 by omega) (show x < 4 by omega), get3_ok ker hi (show y + 2 < 4 by omega) (show x + 2 < 4 by omega), gbind_ok,
      put, if_pos hlt]
  · obtain ⟨t, p⟩ := w
    obtain ⟨ht, rfl⟩ := hw
    rw [hv t ht]
    change t < 4 at ht
    interval_cases t <;> simp [sel]
  · obtain ⟨t, p⟩ := w
    by_cases ht : t < 4
    · have hp : p ≠ index := fun e => hw ⟨ht, e⟩
      interval_cases t <;> simp [sel, hp]
    · match t, ht with
      | t + 4, _ => rfl

theorem kernelStep_ok (ker : ℕ → ℕ → ℕ → ℂ) {i j k : ℕ} (hi : i < 5) (hj : j < 13) (hk : k < 13) :
    Wr sel (fun e => kernelStep ker i j e k) (fun w => w.1 < 4 ∧ ∃ q < 4, w.2 = 1024 * q + (196 * i + 14 * j + k)) (kernelAt ker) := by
  have h := (kernelPuts_ok ker (index := 14 * 14 * i + 14 * j + k) (q := 0) (r := 14 * j + k) hi (by omega) rfl rfl (by omega) (by omega)).seq
    ((kernelPuts_ok ker (index := 14 * 14 * i + 14 * j + k + 1024) (q := 1) (r := 14 * j + k) hi (by omega) rfl rfl (by omega) (by omega)).seq
    ((kernelPuts_ok ker (index := 14 * 14 * i + 14 * j + k + 1024 + 1024) (q := 2) (r := 14 * j + k) hi (by omega) rfl rfl (by omega) (by omega)).seq
    (kernelPuts_ok ker (index := 14 * 14 * i + 14 * j + k + 1024 + 1024 + 1024) (q := 3) (r := 14 * j + k) hi (by omega) rfl rfl (by omega)
      (by omega))))
  exact h.mono fun w => by
    constructor
    · rintro (h | h | h | h)
      · exact ⟨h.1, 0, by omega, by omega⟩
      · exact ⟨h.1, 1, by omega, by omega⟩
      · exact ⟨h.1, 2, by omega, by omega⟩
      · exact ⟨h.1, 3, by omega, by omega⟩
    · rintro ⟨ht, q, hq, h⟩
      interval_cases q
      · left; omega
      · right; left; omega
      · right; right; left; omega
      · right; right; right; omega

/-- the places of outputs of the convolution in the blocks of 1024 -/
def Place (p : ℕ) : Prop := p % 1024 < 980 ∧ p % 1024 % 196 / 14 < 13 ∧ p % 1024 % 14 < 13

instance (p : ℕ) : Decidable (Place p) := by unfold Place; infer_instance

theorem packKernels_ok (ker : ℕ → ℕ → ℕ → ℂ) :
    ∃ es, packKernels ker = .ok es ∧ es.length = 4 ∧
      ∀ t (ht : t < es.length), ∀ p < 8192, es[t] p = if Place p then kernelAt ker (t, p % 4096) else 0 := by
  obtain ⟨e, h1, h2⟩ := (Wr.range (n := 5) fun i hi => Wr.range (n := 13) fun j hj => Wr.range (n := 13) fun k hk =>
    kernelStep_ok ker hi hj hk) (zeros, zeros, zeros, zeros)
  have hsel : ∀ t < 4, ∀ p < 4096, sel e (t, p) = if Place p then kernelAt ker (t, p) else 0 := fun t ht p hp => by
    by_cases h : Place p
    · rw [if_pos h]
      obtain ⟨p1, p2, p3⟩ := h
      exact (h2 (t, p)).1 ⟨p % 1024 / 196, by omega, p % 1024 % 196 / 14, by omega, p % 1024 % 14, by omega, ht, p / 1024, by omega,
        by show p = _; omega⟩
    · rw [if_neg h]
      refine ((h2 (t, p)).2 ?_).trans (by interval_cases t <;> rfl)
      rintro ⟨i, hi, j, hj, k, hk, _, q, hq, e⟩
      refine h ?_
      change p = _ at e
      have h3 : p % 1024 = 196 * i + 14 * j + k := by omega
      unfold Place
      rw [h3, show (196 * i + 14 * j + k) % 196 = 14 * j + k by omega]
      omega
  obtain ⟨e0, d0, d0'⟩ := duplicate_ok e.1
  obtain ⟨e1, d1, d1'⟩ := duplicate_ok e.2.1
  obtain ⟨e2, d2, d2'⟩ := duplicate_ok e.2.2.1
  obtain ⟨e3, d3, d3'⟩ := duplicate_ok e.2.2.2
  refine ⟨[e0, e1, e2, e3], ?_, rfl, fun t ht p hp => ?_⟩
  · unfold packKernels
    dsimp only at h1
    rw [h1, gbind_ok, d0, gbind_ok, d1, gbind_ok, d2, gbind_ok, d3, gbind_ok]
  · have hpl : Place p ↔ Place (p % 4096) := by
      unfold Place
      rw [Nat.mod_mod_of_dvd p (show 1024 ∣ 4096 by norm_num)]
    change t < 4 at ht
    have := hsel t ht (p % 4096) (by omega)
    rw [if_congr hpl rfl rfl, ← this]
    interval_cases t
    · exact d0' p hp
    · exact d1' p hp
    · exact d2' p hp
    · exact d3' p hp

/-! ## the dense layers -/

def tempAt (fc1 : ℕ → ℕ → ℂ) (w : ℕ × ℕ) : ℂ := fc1 (w.2 / 196 + 5 * (w.2 % 196 / 14 * 13 + w.2 % 14)) w.1

theorem tempFC1_ok (fc1 : ℕ → ℕ → ℂ) :
    ∃ t, tempFC1 fc1 = .ok t ∧ ∀ l < 64, ∀ p < 1024, t l p = if Place p then tempAt fc1 (l, p) else 0 := by
  obtain ⟨t, h1, h2⟩ := (Wr.range (n := 5) (rd := fun (t : ℕ → Arr) (w : ℕ × ℕ) => t w.1 w.2) (f := tempAt fc1)
    (D := fun i w => ∃ j < 13, ∃ k < 13, ∃ l < 64, w = (l, 196 * i + 14 * j + k))
    (body := fun (t : ℕ → Arr) (i : ℕ) => Go.loop (fun (t : ℕ → Arr) (j : ℕ) => Go.loop (fun (t : ℕ → Arr) (k : ℕ) =>
    Go.loop (fun (t : ℕ → Arr) (l : ℕ) => do
      let v ← get2 845 64 fc1 (i + 5 * (j * 13 + k)) l
      put2 t l (14 * 14 * i + 14 * j + k) v) t (List.range 64)) t (List.range 13)) t (List.range 13))
    fun i hi => Wr.range (n := 13) fun j hj => Wr.range (n := 13) fun k hk => Wr.range (n := 64) fun l hl => by
      intro e
      refine ⟨Function.update e l (Function.update (e l) (196 * i + 14 * j + k) (fc1 (i + 5 * (j * 13 + k)) l)), ?_,
        fun w => ⟨fun hw => ?_, fun hw => ?_⟩⟩
      · dsimp only
        rw [get2_ok fc1 (by omega) hl, gbind_ok]
        unfold put2 put
        rw [if_pos hl, if_pos (by omega), gbind_ok]
      · subst hw
        simp only [Function.update_self]
        unfold tempAt
        dsimp only
        rw [show (196 * i + 14 * j + k) / 196 = i by omega, show (196 * i + 14 * j + k) % 196 / 14 = j by omega,
          show (196 * i + 14 * j + k) % 14 = k by omega]
      · obtain ⟨l', p⟩ := w
        dsimp only
        by_cases h : l' = l
        · subst h
          rw [Function.update_self, Function.update_of_ne (fun e => hw (by rw [e]))]
        · rw [Function.update_of_ne h]) (fun _ => zeros)
  refine ⟨t, h1, fun l hl p hp => ?_⟩
  by_cases h : Place p
  · rw [if_pos h]
    obtain ⟨p1, p2, p3⟩ := h
    rw [Nat.mod_eq_of_lt hp] at p1 p2 p3
    refine (h2 (l, p)).1 ⟨p / 196, by omega, p % 196 / 14, by omega, p % 14, by omega, l, hl, ?_⟩
    congr 1
    omega
  · rw [if_neg h]
    refine ((h2 (l, p)).2 ?_).trans rfl
    rintro ⟨i, hi, j, hj, k, hk, l', hl', e⟩
    refine h ?_
    have e2 : p = 196 * i + 14 * j + k := congrArg Prod.snd e
    unfold Place
    rw [Nat.mod_eq_of_lt hp, e2]
    omega

theorem packDiagonal_ok (t : ℕ → Arr) (i : ℕ) :
    ∃ e, packDiagonal t i = .ok e ∧ ∀ p < 8192, e p = t (p / 128) (128 * ((i + p / 128) % 8) + p % 128) := by
  obtain ⟨e, h1, h2⟩ := (Wr.range (n := 64) (rd := fun e : Arr => e) (f := fun p => t (p / 128) (128 * ((i + p / 128) % 8) + p % 128))
    (D := fun j p => ∃ k < 128, p = 128 * j + k)
    (body := fun (e : Arr) (j : ℕ) => Go.loop (fun (e : Arr) (k : ℕ) => do
      let v ← get2 64 1024 t j (128 * ((i + j) % 8) + k)
      put 8192 e (128 * j + k) v) e (List.range 128))
    fun j hj => Wr.range (n := 128) fun k hk => by
      intro e
      obtain ⟨e', g1, g2⟩ := Wr.put (n := 8192) (i := 128 * j + k) (f := fun p => t (p / 128) (128 * ((i + p / 128) % 8) + p % 128)) (by omega) rfl e
      refine ⟨e', ?_, g2⟩
      rw [← g1]
      dsimp only
      rw [get2_ok t hj (by omega), gbind_ok, show (128 * j + k) / 128 = j by omega, show (128 * j + k) % 128 = k by omega]) zeros
  exact ⟨e, h1, fun p hp => (h2 p).1 ⟨p / 128, by omega, p % 128, by omega, by omega⟩⟩

theorem packFC1_ok (fc1 : ℕ → ℕ → ℂ) :
    ∃ es, packFC1 fc1 = .ok es ∧ es.length = 8 ∧ ∀ i (hi : i < es.length), ∀ p < 8192,
      es[i] p = if Place (128 * ((i + p / 128) % 8) + p % 128) then tempAt fc1 (p / 128, 128 * ((i + p / 128) % 8) + p % 128) else 0 := by
  obtain ⟨t, t1, t2⟩ := tempFC1_ok fc1
  obtain ⟨es, h1, h2, h3⟩ := Go.loop_inv (fun (w : List Arr) (i : ℕ) => (do
    let e ← packDiagonal t i
    .ok (w ++ [e]) : Go (List Arr))) (fun pre w => w.length = pre.length ∧ ∀ i (hi : i < w.length), ∀ p < 8192,
      w[i] p = t (p / 128) (128 * ((i + p / 128) % 8) + p % 128)) (List.range 8) [] ⟨rfl, fun i hi => absurd hi (by simp)⟩
    (by
      intro pre i suf w he hI
      have hi : i = pre.length := by
        have hlen := congrArg List.length he
        rw [List.length_range, List.length_append, List.length_cons] at hlen
        have h3 : (List.range 8)[pre.length]? = some i := by rw [he]; simp
        rw [List.getElem?_range (by omega)] at h3
        simpa using h3.symm
      obtain ⟨e, d1, d2⟩ := packDiagonal_ok t i
      refine ⟨w ++ [e], by rw [d1, gbind_ok], by simp [hI.1], fun k hk p hp => ?_⟩
      by_cases hkl : k < w.length
      · rw [List.getElem_append_left hkl]
        exact hI.2 k hkl p hp
      · have hk' : k = i := by
          rw [List.length_append, List.length_singleton] at hk
          have := hI.1
          omega
        subst hk'
        rw [List.getElem_append_right (by omega)]
        simpa using d2 p hp)
  refine ⟨es, ?_, by simpa using h2, fun i hi p hp => ?_⟩
  · unfold packFC1
    rw [t1, gbind_ok]
    exact h1
  · rw [h3 i hi p hp]
    exact t2 _ (by omega) _ (by omega)

theorem packFC2_ok {slots : ℕ} (fc2 : ℕ → ℕ → ℂ) :
    ∃ e, packFC2 slots fc2 = .ok e ∧ ∀ p < slots, e p = if p % 128 < 10 ∧ p / 128 < 64 then fc2 (p / 128) (p % 128) else 0 := by
  obtain ⟨e, h1, h2⟩ := (Wr.range (n := slots) (rd := fun e : Arr => e) (f := fun p => fc2 (p / 128) (p % 128))
    (D := fun i p => p = i ∧ (p % 128 < 10 ∧ p / 128 < 64))
    (body := fun (e : Arr) (i : ℕ) => do
      let x := i / 128
      let y := i % 128
      if y < 10 ∧ x < 64 then
        let v ← get2 64 10 fc2 x y
        put slots e i v
      else .ok e)
    fun i hi => by
      intro e
      by_cases h : i % 128 < 10 ∧ i / 128 < 64
      · obtain ⟨e', g1, g2⟩ := Wr.put (n := slots) (i := i) (f := fun p => fc2 (p / 128) (p % 128)) hi rfl e
        refine ⟨e', ?_, fun p => ⟨fun hp => (g2 p).1 hp.1, fun hp => (g2 p).2 fun e => hp ⟨e, by rw [e]; exact h⟩⟩⟩
        rw [← g1]
        dsimp only
        rw [if_pos h, get2_ok fc2 h.2 h.1, gbind_ok]
      · exact ⟨e, by dsimp only; rw [if_neg h], fun p => ⟨fun hp => absurd (hp.1 ▸ hp.2) h, fun _ => rfl⟩⟩) zeros
  refine ⟨e, h1, fun p hp => ?_⟩
  by_cases h : p % 128 < 10 ∧ p / 128 < 64
  · rw [if_pos h]
    exact (h2 p).1 ⟨p, hp, rfl, h⟩
  · rw [if_neg h]
    exact ((h2 p).2 (by rintro ⟨i, _, _, g⟩; exact h g)).trans rfl

theorem packB1_ok {slots : ℕ} (hs : 64 * 128 ≤ slots) (b : ℕ → ℂ) :
    ∃ e, packB1 slots b = .ok e ∧ ∀ p, e p = if p % 128 = 0 ∧ p / 128 < 64 then b (p / 128) else 0 := by
  obtain ⟨e, h1, h2⟩ := (Wr.range (n := 64) (rd := fun e : Arr => e) (f := fun p => b (p / 128)) (D := fun i p => p = i * 128)
    (body := fun (e : Arr) (i : ℕ) => do
      let v ← get 64 b i
      put slots e (i * 128) v)
    fun i hi => by
      intro e
      obtain ⟨e', g1, g2⟩ := Wr.put (n := slots) (i := i * 128) (f := fun p => b (p / 128)) (by omega) rfl e
      refine ⟨e', ?_, g2⟩
      rw [← g1]
      dsimp only
      rw [get_ok b hi, gbind_ok, Nat.mul_div_cancel _ (by norm_num)]) zeros
  refine ⟨e, h1, fun p => ?_⟩
  split_ifs with h
  · exact (h2 p).1 ⟨p / 128, h.2, by omega⟩
  · exact ((h2 p).2 (by rintro ⟨i, h3, h4⟩; exact h ⟨by omega, by omega⟩)).trans rfl

theorem packB2_ok {slots : ℕ} (hs : 10 ≤ slots) (b : ℕ → ℂ) : ∃ e, packB2 slots b = .ok e ∧ ∀ p, e p = if p < 10 then b p else 0 := by
  obtain ⟨e, h1, h2⟩ := (Wr.range (n := 10) (rd := fun e : Arr => e) (f := b) (D := fun i p => p = i)
    (body := fun (e : Arr) (i : ℕ) => do
      let v ← get 10 b i
      put slots e i v)
    fun i hi => by
      intro e
      obtain ⟨e', g1, g2⟩ := Wr.put (n := slots) (i := i) (f := b) (by omega) rfl e
      refine ⟨e', ?_, g2⟩
      rw [← g1]
      dsimp only
      rw [get_ok b hi, gbind_ok]) zeros
  refine ⟨e, h1, fun p => ?_⟩
  split_ifs with h
  · exact (h2 p).1 ⟨p, h, rfl⟩
  · exact ((h2 p).2 (by rintro ⟨i, h3, h4⟩; exact h (by omega))).trans rfl

theorem packMask_ok (slots : ℕ) : ∃ e, packMask slots = .ok e ∧ ∀ p < slots, e p = if p % 128 = 0 then 1 else 0 := by
  obtain ⟨e, h1, h2⟩ := (Wr.range (n := (slots + 127) / 128) (rd := fun e : Arr => e) (f := fun _ => 1) (D := fun i p => p = 128 * i)
    (body := fun (e : Arr) (i : ℕ) => put slots e (128 * i) 1) fun i hi => Wr.put (n := slots) (by omega) rfl) zeros
  refine ⟨e, h1, fun p hp => ?_⟩
  by_cases h : p % 128 = 0
  · rw [if_pos h]
    exact (h2 p).1 ⟨p / 128, by omega, by omega⟩
  · rw [if_neg h]
    exact ((h2 p).2 (by rintro ⟨i, _, e⟩; omega)).trans rfl

end MKHE.Cnn
