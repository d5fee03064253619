import Verif.Props.RenameBfv

set_option autoImplicit false

/-!
# C73: party identifiers are only labels (key generation, key sets, encryption and decryption)
-/

namespace MKHE.C73

variable {N : ℕ} [NeZero N] {C : Ctx N} {B : BCtx N} (π : Renaming)

/-! ## key sets -/

section Sets
variable {K : Type} (g : K → K) (idOf : K → String) (hid : ∀ k, idOf (g k) = π (idOf k))
include hid

/-- `AddSecretKey`, `AddPublicKey`, `AddConjugationKey` -/
theorem keySet_add (s : KeySet K) (k : K) : (s.ren π g).add idOf (g k) = (s.add idOf k).ren π g := by
  unfold KeySet.add KeySet.ren
  rw [hid, GoMap.insert_ren]

end Sets

/-- `DelSecretKey`, `DelPublicKey`, `DelConjugationKey` -/
theorem keySet_del {K : Type} (g : K → K) (s : KeySet K) (id : String) : (s.ren π g).del (π id) = (s.del id).ren π g := by
  unfold KeySet.del KeySet.ren
  rw [GoMap.erase_ren]

/-- `AddRelinearizationKey` -/
theorem rlkSet_add (fresh : Swk C) (s : RlkMap C) (k : Rlk C) :
    RlkSet.add Rlk.id fresh (RlkMap.ren π s) (k.ren π) = RlkMap.ren π (s.add Rlk.id fresh k) := by
  unfold RlkSet.add RlkMap.ren
  rw [GoMap.insert_ren, GoMap.insert_rn, GoMap.insert_rn]
  rfl

/-- `DelRelinearizationKey` -/
theorem rlkSet_del (s : RlkMap C) (id : String) : RlkSet.del (RlkMap.ren π s) (π id) = RlkMap.ren π (s.del id) := by
  unfold RlkSet.del RlkMap.ren
  rw [GoMap.erase_ren]

/-- `GetRelinearizationKey` -/
theorem rlkSet_get (s : RlkMap C) (id : String) : RlkSet.get (RlkMap.ren π s) (π id) = (s.get id).map (Rlk.ren π) := by
  unfold RlkSet.get RlkMap.ren
  dsimp only
  rw [GoMap.lookup_ren]
  cases s.value.lookup id <;> rfl

/-- `mkbfv.AddRelinearizationKey` -/
theorem bfvRlkSet_add (z : PolyR N) (fresh : Swk B.C) (s : BRlkMap B) (k : BRlk B.C) :
    BfvRlkSet.add BRlk.id z fresh (BRlkMap.ren π s) (k.ren π) = BRlkMap.ren π (s.add BRlk.id z fresh k) := by
  unfold BfvRlkSet.add BRlkMap.ren
  simp only [GoMap.insert_ren, GoMap.insert_rn]
  rfl

/-- `mkbfv.DelRelinearizationKey` -/
theorem bfvRlkSet_del (s : BRlkMap B) (id : String) : BfvRlkSet.del (BRlkMap.ren π s) (π id) = BRlkMap.ren π (s.del id) := by
  unfold BfvRlkSet.del BRlkMap.ren
  rw [GoMap.erase_ren]

/-- `mkbfv.GetRelinearizationKey` -/
theorem bfvRlkSet_get (s : BRlkMap B) (id : String) : BfvRlkSet.get (BRlkMap.ren π s) (π id) = (s.get id).map (BRlk.ren π) := by
  unfold BfvRlkSet.get BRlkMap.ren
  dsimp only
  rw [GoMap.lookup_ren]
  cases s.value.lookup id <;> rfl

/-- `mkbfv.NewRelinearizationKeyKeySet`: the pools have the entry "0" -/
theorem bfvRlkSet_new (z : PolyR N) : BRlkMap.ren π (BfvRlkSet.new z : BRlkMap B) = BfvRlkSet.new z := by
  unfold BRlkMap.ren BfvRlkSet.new
  simp only [GoMap.insert_rn0]
  rfl

/-- `AddRotationKey` -/
theorem rotSet_add (s : RotKeySet (GalKey C)) (k : GalKey C) :
    (s.ren π).add GalKey.id GalKey.rotIdx (k.ren π) = (s.add GalKey.id GalKey.rotIdx k).ren π := by
  have hi : (k.ren π).id = π k.id := rfl
  have hr : (k.ren π).rotIdx = k.rotIdx := rfl
  have inner : ∀ m : GoMap ℕ (GalKey C), (GoMap.ren (Equiv.refl ℕ) (GalKey.ren π) m).insert k.rotIdx (k.ren π)
      = GoMap.ren (Equiv.refl ℕ) (GalKey.ren π) (m.insert k.rotIdx k) := fun m => (GoMap.insert_ren (Equiv.refl ℕ) (GalKey.ren π) m k.rotIdx k).symm
  unfold RotKeySet.add RotKeySet.ren
  dsimp only
  rw [hi, hr, GoMap.lookup_ren]
  cases h : s.value.lookup k.id with
  | some m =>
    dsimp only [Option.map_some]
    rw [GoMap.lookup_ren, h]
    dsimp only [Option.map_some]
    rw [GoMap.insert_ren, ← inner]
  | none =>
    dsimp only [Option.map_none]
    rw [AList.lookup_insert, AList.lookup_insert]
    dsimp only
    rw [GoMap.insert_ren, ← inner, GoMap.insert_ren]
    rfl

/-- `DelRotationKey` -/
theorem rotSet_del (s : RotKeySet (GalKey C)) (id : String) (r : ℕ) : (s.ren π).del (π id) r = (s.del id r).ren π := by
  unfold RotKeySet.del RotKeySet.ren
  dsimp only
  rw [GoMap.lookup_ren]
  cases h : s.value.lookup id with
  | some m =>
    dsimp only [Option.map_some]
    rw [GoMap.insert_ren]
    have := GoMap.erase_ren (Equiv.refl ℕ) (GalKey.ren π) m r
    rw [Equiv.refl_apply] at this
    rw [this]
  | none => rfl

/-! ## key generation: the randomness is the same, the key has the new identifier -/

/-- `GenSecretKey` and its variants -/
theorem genSecretKey (x : Nega N ℤ) (id : String) : (MKHE.genSecretKey x (π id) : SKey C) = (MKHE.genSecretKey x id).ren π := rfl

/-- `GenPublicKey` -/
theorem genPublicKey (crs : GoMap ℤ (Swk C)) (gs : ℕ → Nega N ℤ) (st : KG C) (sk : SKey C) :
    MKHE.genPublicKey crs gs st (sk.ren π) = (MKHE.genPublicKey crs gs st sk).map fun w => (w.1.ren π, w.2) := by
  unfold MKHE.genPublicKey
  exact Go.bind_eq' rfl fun a => Go.ite_ren rfl rfl

/-- `GenKeyPair` -/
theorem genKeyPair (crs : GoMap ℤ (Swk C)) (gs : ℕ → Nega N ℤ) (st : KG C) (x : Nega N ℤ) (id : String) :
    MKHE.genKeyPair crs gs st x (π id) = (MKHE.genKeyPair crs gs st x id).map fun w => (w.1.ren π, w.2.1.ren π, w.2.2) := by
  unfold MKHE.genKeyPair
  exact Go.bind_ren (genPublicKey π crs gs st (MKHE.genSecretKey x id)) fun _ => rfl

/-- `GenRelinearizationKey` -/
theorem genRelinearizationKey (crs : GoMap ℤ (Swk C)) (gs : ℕ → Nega N ℤ) (st : KG C) (sk r : SKey C) :
    MKHE.genRelinearizationKey crs gs st (sk.ren π) (r.ren π) = (MKHE.genRelinearizationKey crs gs st sk r).map fun w => (w.1.ren π, w.2) := by
  unfold MKHE.genRelinearizationKey
  refine Go.ite_ren rfl (Go.bind_eq' rfl fun a => Go.bind_eq' rfl fun b => Go.bind_eq' rfl fun d => Go.bind_eq' rfl fun dv => Go.bind_eq' rfl fun v => ?_)
  exact Go.bind_eq' rfl fun u => Go.bind_eq' rfl fun vv => rfl

/-- `GenRotationKey` -/
theorem genRotationKey (crs : GoMap ℤ (Swk C)) (gs : ℕ → Nega N ℤ) (st : KG C) (r : ℤ) (sk : SKey C) :
    MKHE.genRotationKey crs gs st r (sk.ren π) = (MKHE.genRotationKey crs gs st r sk).map fun w => (w.1.ren π, w.2) := by
  unfold MKHE.genRotationKey
  exact Go.ite_ren rfl (Go.bind_eq' rfl fun w => Go.bind_eq' rfl fun a => Go.bind_eq' rfl fun v => rfl)

theorem defaultRotLoop (crs : GoMap ℤ (Swk C)) (gs : ℕ → Nega N ℤ) (sk : SKey C) (fuel k : ℕ) (set : RotKeySet (GalKey C)) (st : KG C) :
    MKHE.defaultRotLoop crs gs (sk.ren π) fuel k (set.ren π) st = (MKHE.defaultRotLoop crs gs sk fuel k set st).map fun w => (w.1.ren π, w.2) := by
  induction fuel generalizing k set st with
  | zero => rfl
  | succ n ih =>
    unfold MKHE.defaultRotLoop
    refine Go.ite_ren (Go.bind_ren (genRotationKey π crs gs st k sk) fun w => ?_) rfl
    dsimp only
    rw [rotSet_add]
    exact ih _ _ _

/-- `GenDefaultRotationKeys` -/
theorem genDefaultRotationKeys (crs : GoMap ℤ (Swk C)) (gs : ℕ → Nega N ℤ) (st : KG C) (sk : SKey C) (set : RotKeySet (GalKey C)) :
    MKHE.genDefaultRotationKeys crs gs st (sk.ren π) (set.ren π) = (MKHE.genDefaultRotationKeys crs gs st sk set).map fun w => (w.1.ren π, w.2) :=
  defaultRotLoop π crs gs sk N 1 set st

/-- `GenConjugationKey` -/
theorem genConjugationKey (crs : GoMap ℤ (Swk C)) (gs : ℕ → Nega N ℤ) (st : KG C) (sk : SKey C) :
    MKHE.genConjugationKey crs gs st (sk.ren π) = (MKHE.genConjugationKey crs gs st sk).map fun w => (w.1.ren π, w.2) := by
  unfold MKHE.genConjugationKey
  exact Go.bind_eq' rfl fun w => Go.bind_eq' rfl fun a => Go.bind_eq' rfl fun v => rfl

/-- `mkbfv.GenRelinearizationKey` -/
theorem genBfvRelinearizationKey (crs : GoMap ℤ (Swk B.C)) (gs : ℕ → Nega N ℤ) (st : KG B.C) (sk r : SKey B.C) :
    MKHE.genBfvRelinearizationKey crs gs st (sk.ren π) (r.ren π) = (MKHE.genBfvRelinearizationKey crs gs st sk r).map fun w => (w.1.ren π, w.2) := by
  unfold MKHE.genBfvRelinearizationKey
  refine Go.bind_eq' rfl fun a1 => Go.bind_eq' rfl fun a2 => Go.bind_eq' rfl fun b => Go.bind_eq' rfl fun d => Go.bind_eq' rfl fun d1 => Go.bind_eq' rfl fun d2 => ?_
  exact Go.bind_eq' rfl fun v => Go.bind_eq' rfl fun u => Go.bind_eq' rfl fun vv => rfl

/-! ## encryption -/

theorem onRows (ct : Ct C) (id : String) (l : ℕ) (f : ∀ i, Limb N (C.q i) → Limb N (C.q i)) :
    Ct.onRows (ct.rn π) (π id) l f = (Ct.onRows ct id l f).map (GoMap.rn π) := by
  unfold Ct.onRows
  exact Go.bind_eq' (GoMap.deref_rn π ct id) fun p => Go.bind_eq' rfl fun _ => ok_insert' π ct id _

theorem onRows0 (ct : Ct C) (l : ℕ) (f : ∀ i, Limb N (C.q i) → Limb N (C.q i)) :
    Ct.onRows (ct.rn π) "0" l f = (Ct.onRows ct "0" l f).map (GoMap.rn π) := by
  have := onRows π ct "0" l f; rwa [π.zero] at this

theorem truncate (ct : Ct C) (id : String) (l : ℕ) : Ct.truncate (ct.rn π) (π id) l = (Ct.truncate ct id l).map (GoMap.rn π) := by
  unfold Ct.truncate
  exact Go.bind_eq' (GoMap.deref_rn π ct id) fun p => Go.bind_eq' rfl fun _ => ok_insert' π ct id _

theorem truncate0 (ct : Ct C) (l : ℕ) : Ct.truncate (ct.rn π) "0" l = (Ct.truncate ct "0" l).map (GoMap.rn π) := by
  have := truncate π ct "0" l; rwa [π.zero] at this

theorem encryptNTT (gs : ℕ → Nega N ℤ) (st : Enc C) (l : ℕ) (pt : Poly C) (id : String) (ct : Ct C) :
    MKHE.encryptNTT gs st l pt (π id) (ct.rn π) = (MKHE.encryptNTT gs st l pt id ct).map (rp π) := by
  unfold MKHE.encryptNTT
  refine Go.bind_ren (onRows π ct id l _) fun ct => Go.bind_eq' rfl fun _ => Go.ite_ren ?_ ?_
  · exact Go.bind_ren (onRows0 π ct l _) fun _ => rfl
  · exact Go.bind_ren (onRows0 π ct l _) fun ct => Go.bind_ren (onRows0 π ct l _) fun _ => rfl

theorem encryptCoeff (gs : ℕ → Nega N ℤ) (st : Enc C) (l : ℕ) (pt : Poly C) (id : String) (ct : Ct C) :
    MKHE.encryptCoeff gs st l pt (π id) (ct.rn π) = (MKHE.encryptCoeff gs st l pt id ct).map (rp π) := by
  unfold MKHE.encryptCoeff
  refine Go.bind_ren (onRows0 π ct l _) fun ct => Go.bind_ren (onRows π ct id l _) fun ct => Go.bind_eq' (level π ct) fun l0 => Go.bind_ren (onRows0 π ct l0 _) fun ct => ?_
  refine Go.bind_eq' (level π ct) fun l1 => Go.bind_ren (onRows π ct id l1 _) fun ct => Go.bind_eq' rfl fun _ => Go.ite_ren ?_ ?_
  · exact Go.bind_ren (onRows0 π ct l _) fun _ => rfl
  · exact Go.bind_ren (onRows0 π ct l _) fun _ => rfl

/-- `Encrypt` -/
theorem encrypt (us gs : ℕ → Nega N ℤ) (st : Enc C) (pt : Poly C) (pk : PKey C) (out : Ct C) :
    MKHE.encrypt us gs st pt (pk.ren π) (out.rn π) = (MKHE.encrypt us gs st pt pk out).map (rp π) := by
  unfold MKHE.encrypt
  refine Go.bind_eq' (level π out) fun l0 => Go.bind_eq' (GoMap.deref_rn0 π out) fun p0 => Go.bind_ren (onRows0 π out _ _) fun ct => Go.bind_ren (onRows π ct pk.id _ _) fun ct => ?_
  refine Go.bind_ren (r := rp π) ?_ fun w => Go.bind_eq' (GoMap.deref_rn0 π w.1) fun q0 => Go.bind_eq' (GoMap.deref_rn π w.1 pk.id) fun q1 => ?_
  · unfold encryptBody
    exact Go.ite_ren (encryptNTT π gs _ _ pt pk.id ct) (encryptCoeff π gs _ _ pt pk.id ct)
  · refine Go.bind_ren (r := GoMap.rn π) ?_ fun ct => Go.bind_ren (truncate π ct pk.id _) fun _ => rfl
    have e := GoMap.insert_rn π w.1 pk.id { q1 with isNTT := q0.isNTT }
    refine Eq.trans ?_ (truncate0 π _ _)
    exact congrArg (fun c => Ct.truncate c "0" _) e.symm

/-- `EncryptMsgNew` of mkckks after the encoding -/
theorem ckksEncryptNew (o : Sched String) (us gs : ℕ → Nega N ℤ) (st : Enc C) (pt : Poly C) (s : ℚ) (pk : PKey C) :
    MKHE.ckksEncryptNew (Sched.ren π o) us gs st pt s (pk.ren π) = (MKHE.ckksEncryptNew o us gs st pt s pk).map fun w => (w.1.ren π, w.2) := by
  unfold MKHE.ckksEncryptNew
  refine Go.bind_ren (add π IDSet.new pk.id) fun ids => ?_
  unfold ckksEncryptPtxt
  refine Go.bind_ren (r := rp π) ?_ fun _ => rfl
  rw [show Ct.new (Sched.ren π o 207) (ids.ren π) (C.nQ - 1) = (Ct.new (o 207) ids (C.nQ - 1) : Ct C).rn π from new π _ _ _]
  exact encrypt π us gs st pt pk _

/-- `EncryptMsgNew` of mkbfv after the encoding -/
theorem bfvEncryptNew (o : Sched String) (us gs : ℕ → Nega N ℤ) (st : Enc C) (pt : Poly C) (pk : PKey C) :
    MKHE.bfvEncryptNew (Sched.ren π o) us gs st pt (pk.ren π) = (MKHE.bfvEncryptNew o us gs st pt pk).map (rp π) := by
  unfold MKHE.bfvEncryptNew
  refine Go.bind_ren (add π IDSet.new pk.id) fun ids => ?_
  rw [show Ct.new (Sched.ren π o 207) (ids.ren π) (C.nQ - 1) = (Ct.new (o 207) ids (C.nQ - 1) : Ct C).rn π from new π _ _ _]
  exact encrypt π us gs st pt pk _

/-! ## decryption: the plaintext is the same -/

theorem onRowsUnlessNTT (ct : Ct C) (id : String) (l : ℕ) (f : ∀ i, Limb N (C.q i) → Limb N (C.q i)) :
    Ct.onRowsUnlessNTT (ct.rn π) (π id) l f = (Ct.onRowsUnlessNTT ct id l f).map (GoMap.rn π) := by
  unfold Ct.onRowsUnlessNTT
  exact Go.bind_eq' (GoMap.deref_rn π ct id) fun p => Go.ite_ren (onRows π ct id l f) rfl

/-- `PartialDecrypt` -/
theorem partialDecrypt (ct : Ct C) (sk : SKey C) : MKHE.partialDecrypt (ct.rn π) (sk.ren π) = (MKHE.partialDecrypt ct sk).map (GoMap.rn π) := by
  unfold MKHE.partialDecrypt
  refine Go.bind_eq' (level π ct) fun l => Go.bind_ren (onRowsUnlessNTT π ct sk.id l _) fun ct => Go.bind_ren (onRows π ct sk.id l _) fun ct =>
    Go.bind_ren (onRowsUnlessNTT π ct sk.id l _) fun ct => Go.bind_eq' (GoMap.deref_rn π ct sk.id) fun p => Go.bind_eq' rfl fun _ => Go.bind_ren (onRows0 π ct l _) fun ct => ?_
  exact congrArg Except.ok (GoMap.erase_rn π ct sk.id).symm

theorem decryptLoop (ids : IDSet) (sks : KeySet (SKey C)) (tmp : Ct C) (l : List String) :
    MKHE.decryptLoop (ids.ren π) (sks.ren π (SKey.ren π)) (tmp.rn π) (l.map π) = (MKHE.decryptLoop ids sks tmp l).map (GoMap.rn π) := by
  unfold MKHE.decryptLoop
  refine Go.loop_ren π _ _ fun tmp k => ?_
  refine Go.bind_ren (GoMap.deref_ren π.perm (SKey.ren π) sks.value k) fun sk => ?_
  show (if (ids.ren π).has (π sk.id) = true then _ else _) = _
  rw [has]
  exact Go.ite_ren (partialDecrypt π tmp sk) rfl

/-- `Decrypt` -/
theorem decrypt (o : Sched String) (ct : Ct C) (sks : KeySet (SKey C)) (pt : Poly C) :
    MKHE.decrypt (Sched.ren π o) (ct.rn π) (sks.ren π (SKey.ren π)) pt = MKHE.decrypt o ct sks pt := by
  rw [← Go.map_id (x := MKHE.decrypt o ct sks pt)]
  unfold MKHE.decrypt
  refine Go.bind_eq' (level π ct) fun l => Go.bind_ren (copyNew π (o 200) ct) fun tmp => Go.bind_ren (ofCiphertext π (o 201) tmp) fun ids => Go.bind_ren (r := GoMap.rn π) ?_ fun tmp => ?_
  · show MKHE.decryptLoop _ _ _ (GoMap.range ((o 202).ren π) (GoMap.ren π.perm (SKey.ren π) sks.value)) = _
    rw [GoMap.range_ren]
    exact decryptLoop π ids sks tmp _
  · rw [GoMap.keys_rn, List.length_map]
    exact Go.ite_ren rfl (Go.bind_eq' (GoMap.deref_rn0 π tmp) fun p => Go.bind_eq' rfl fun _ => rfl)

/-- `mkckks.Decryptor.Decrypt` up to the decoding -/
theorem ckksDecrypt (o : Sched String) (pool : Poly C) (ct : CCt C) (sks : KeySet (SKey C)) :
    MKHE.ckksDecrypt (Sched.ren π o) pool (ct.ren π) (sks.ren π (SKey.ren π)) = MKHE.ckksDecrypt o pool ct sks := by
  unfold MKHE.ckksDecrypt
  refine Go.bind_ren_same (copyNew π (o 203) ct.ct) fun tmp => ?_
  rw [decrypt]
  rfl

/-- `mkbfv.Decryptor.Decrypt` up to the decoding -/
theorem bfvDecrypt (o : Sched String) (ct : Ct C) (sks : KeySet (SKey C)) :
    MKHE.bfvDecrypt (Sched.ren π o) (ct.rn π) (sks.ren π (SKey.ren π)) = MKHE.bfvDecrypt o ct sks := by
  unfold MKHE.bfvDecrypt
  refine Go.bind_ren_same (copyNew π (o 204) ct) fun tmp => Go.bind_ren_same (ofCiphertext π (o 205) tmp) fun ids => Go.bind_ren_same (r := GoMap.rn π) ?_ fun tmp => GoMap.deref_rn0 π tmp
  show MKHE.decryptLoop _ _ _ (GoMap.range ((o 206).ren π) (GoMap.ren π.perm (SKey.ren π) sks.value)) = _
  rw [GoMap.range_ren]
  exact decryptLoop π ids sks tmp _

end MKHE.C73
