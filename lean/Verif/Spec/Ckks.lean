import Verif.Lemmas.Slots

set_option autoImplicit false

/-!
# Specification vocabulary for CKKS: approximate encryption
-/

namespace MKHE
open Finset Nega

variable {N : ℕ} [NeZero N] {C : Ctx N}

/-- **CKKS encryption.** Under the secrets `s`, the phase of `ct` modulo every prime of its level is that of one integer polynomial `Φ`, each of
whose slots is within `B` of `scale` times that of the real polynomial `v`: `ct` encrypts `v` at this scale with error at most `B`. (Then the
coefficients of `Φ` are within `B` of those of `scale * v`, too: `coeff_le_slots`.) -/
def CkksEnc (s : String → Nega N ℤ) (ct : Ct C) (level : ℕ) (scale : ℝ) (v : Nega N ℝ) (B : ℝ) : Prop :=
  ∃ Φ : Nega N ℤ, (∀ i ≤ level, ct.phase s i = red (C.q i) Φ) ∧ ∀ j : ℤ, ‖slot j (toReal Φ) - scale * slot j v‖ ≤ B

/-- **CKKS encoding.** A coefficient-domain plaintext polynomial holds, modulo every prime up to `level`, one integer polynomial whose slots are
within `B` of those of `scale * v`. -/
def CkksPt (pt : Poly C) (level : ℕ) (scale : ℝ) (v : Nega N ℝ) (B : ℝ) : Prop :=
  level < pt.len ∧ ∃ Φ : Nega N ℤ, (∀ i ≤ level, cf (pt.rows i) = red (C.q i) Φ) ∧ ∀ j : ℤ, ‖slot j (toReal Φ) - scale * slot j v‖ ≤ B

theorem CkksEnc.mono {s : String → Nega N ℤ} {ct : Ct C} {level : ℕ} {scale : ℝ} {v : Nega N ℝ} {B B' : ℝ}
    (h : CkksEnc s ct level scale v B) (hB : B ≤ B') : CkksEnc s ct level scale v B' := by
  obtain ⟨Φ, h1, h2⟩ := h
  exact ⟨Φ, h1, fun j => (h2 j).trans hB⟩

theorem CkksPt.mono {pt : Poly C} {level level' : ℕ} {scale : ℝ} {v : Nega N ℝ} {B : ℝ}
    (h : CkksPt pt level scale v B) (hl : level' ≤ level) : CkksPt pt level' scale v B := by
  obtain ⟨h0, Φ, h1, h2⟩ := h
  exact ⟨by omega, Φ, fun i hi => h1 i (by omega), h2⟩

end MKHE
