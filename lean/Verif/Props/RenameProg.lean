import Verif.Props.RenameCkks
import Verif.Props.RenameBfv
import Verif.Props.RenameKeys
import Verif.Props.CkksProg
import Verif.Props.BfvProg
import Mathlib.Logic.Equiv.Fintype

set_option autoImplicit false

/-!
# C73: party identifiers are only labels (client programs)

Whole client programs commute with a renaming of the parties, and every one-to-one map from finitely many parties to new identifiers is part of a renaming.
-/

namespace MKHE.C73

variable {N : ℕ} [NeZero N] (π : Renaming)

/-! ## CKKS -/

section Ckks
variable {C : Ctx N}

/-- the same system with renamed key sets -/
def sys (S : C59.Sys C) : C59.Sys C :=
  { S with rlk := RlkMap.ren π S.rlk, rks := S.rks.ren π, cks := S.cks.ren π (GalKey.ren π), U := S.U.map π.perm.toEmbedding,
           s := fun id => S.s (π.inv id), r := fun id => S.r (π.inv id) }

/-- the same evaluator and objects with renamed parties -/
def machine (M : C59.Machine C) : C59.Machine C :=
  ⟨⟨M.st.ev.ren π, RlkMap.ren π M.st.rlk⟩, M.cts.map (CCt.ren π), M.hs.map (GoMap.rn π)⟩

/-- the same outside world; iteration orders list the renamed keys -/
def env (w : C59.Env C) : C59.Env C := { w with o := fun n => orders π (w.o n) }

theorem fetch {α : Type} (r : α → α) (l : List α) (i : ℕ) : C59.fetch (l.map r) i = (C59.fetch l i).map r := by
  unfold C59.fetch
  rw [List.getElem?_map]
  cases l[i]? <;> rfl

theorem push (M : C59.Machine C) (ct : CCt C) (ev : Eval C) (rlk : RlkMap C) :
    (machine π M).push (ct.ren π) (ev.ren π) (RlkMap.ren π rlk) = machine π (M.push ct ev rlk) := by
  unfold C59.Machine.push machine
  simp

/-- one call -/
theorem step (S : C59.Sys C) (w : C59.Env C) (n : ℕ) (M : C59.Machine C) (c : C59.Instr) :
    C59.step (sys π S) (env π w) n (machine π M) c = (C59.step S w n M c).map (machine π) := by
  have ok : ∀ (ct : CCt C) (ev : Eval C) (rlk : RlkMap C), (Except.ok ((machine π M).push (ct.ren π) (ev.ren π) (RlkMap.ren π rlk)) : Go _)
      = Except.map (machine π) (Except.ok (M.push ct ev rlk)) := fun ct ev rlk => congrArg Except.ok (push π M ct ev rlk)
  cases c with
  | add i j =>
    exact Go.bind_ren (fetch (CCt.ren π) M.cts i) fun a => Go.bind_ren (fetch (CCt.ren π) M.cts j) fun b =>
      Go.bind_ren (ckksAddNew π w.mredPsi (w.o n 0) M.st.ev a b) fun r => ok r.1 r.2 M.st.rlk
  | sub i j =>
    exact Go.bind_ren (fetch (CCt.ren π) M.cts i) fun a => Go.bind_ren (fetch (CCt.ren π) M.cts j) fun b =>
      Go.bind_ren (ckksSubNew π w.mredPsi (w.o n 0) M.st.ev a b) fun r => ok r.1 r.2 M.st.rlk
  | mul i j =>
    exact Go.bind_ren (fetch (CCt.ren π) M.cts i) fun a => Go.bind_ren (fetch (CCt.ren π) M.cts j) fun b =>
      Go.bind_ren (ckksMulRelinNew π S.pscale S.crs (w.o n 0) M.st.ev (decide (i = j)) a b M.st.rlk) fun r => ok r.1 r.2.1 r.2.2
  | rot i r =>
    exact Go.bind_ren (fetch (CCt.ren π) M.cts i) fun a =>
      Go.bind_ren (ckksRotateNew π S.crs (w.o n) M.st.ev a r S.rks) fun r => ok r.1 r.2 M.st.rlk
  | conj i =>
    exact Go.bind_ren (fetch (CCt.ren π) M.cts i) fun a => Go.bind_eq' (level π a.ct) fun l =>
      Go.bind_ren (ckksConjugateNew π (w.perm l) S.crs (w.o n 0) M.st.ev a S.cks) fun r => ok r.1 r.2 M.st.rlk
  | hoist i =>
    refine Go.bind_ren (fetch (CCt.ren π) M.cts i) fun a => Go.bind_ren (hoistedForm π (w.o n 0) M.st.ev.ksw a.ct) fun r => ?_
    refine congrArg Except.ok ?_
    unfold machine
    simp only [List.map_append, List.map_cons, List.map_nil]
    rfl
  | mulH i j h k =>
    exact Go.bind_ren (fetch (CCt.ren π) M.cts i) fun a => Go.bind_ren (fetch (CCt.ren π) M.cts j) fun b =>
      Go.bind_ren (fetch (GoMap.rn π) M.hs h) fun ah => Go.bind_ren (fetch (GoMap.rn π) M.hs k) fun bh =>
      Go.bind_ren (ckksMulRelinHoistedNew π S.pscale S.crs (w.o n 0) M.st.ev a b (some ah) (some bh) M.st.rlk) fun r => ok r.1 r.2 M.st.rlk
  | rotH i r h =>
    exact Go.bind_ren (fetch (CCt.ren π) M.cts i) fun a => Go.bind_ren (fetch (GoMap.rn π) M.hs h) fun ah =>
      Go.bind_ren (ckksRotateHoistedNew π S.crs (w.o n) M.st.ev a r ah S.rks) fun r => ok r.1 r.2 M.st.rlk
  | mulPt i p =>
    exact Go.bind_ren (fetch (CCt.ren π) M.cts i) fun a =>
      Go.bind_ren (mulPtxtNew π S.pscale (w.o n 0) M.st.ev a (w.pts p).1 (w.pts p).2) fun r => ok r.1 r.2 M.st.rlk
  | drop i k =>
    exact Go.bind_ren (fetch (CCt.ren π) M.cts i) fun a =>
      Go.bind_ren (dropLevelNew π (w.o n 0 0) (w.o n 0 1) a k) fun r => ok r M.st.ev M.st.rlk
  | const i k =>
    exact Go.bind_ren (fetch (CCt.ren π) M.cts i) fun a => Go.bind_ren (copyNew π (w.o n 0 0) a.ct) fun cp =>
      Go.bind_ren (multByConst π w.mredPsi (w.o n 0 1) false a k ⟨cp, a.scale⟩) fun r => ok r M.st.ev M.st.rlk
  | rescale i ms =>
    exact Go.bind_ren (fetch (CCt.ren π) M.cts i) fun a => Go.bind_ren (copyNew π (w.o n 0 0) a.ct) fun cp =>
      Go.bind_ren (rescale π (w.o n 0 1) ⟨cp, a.scale⟩ ms ⟨cp, a.scale⟩ true) fun r => ok r.2 M.st.ev M.st.rlk

/-- Any program of calls, on renamed ciphertexts with renamed keys, ends in the renamed ciphertexts, or fails in the same way. -/
theorem run (S : C59.Sys C) (w : C59.Env C) (n : ℕ) (M : C59.Machine C) (p : List C59.Instr) :
    C59.run (sys π S) (env π w) n (machine π M) p = (C59.run S w n M p).map (machine π) := by
  induction p generalizing n M with
  | nil => rfl
  | cons c p ih => exact Go.bind_ren (step π S w n M c) fun M' => ih (n + 1) M'

end Ckks

/-! ## BFV -/

section Bfv
variable {B : BCtx N}

def keyring (K : C58.Keyring B) : C58.Keyring B := ⟨K.crs, BRlkMap.ren π K.rlk, K.rks.ren π, K.cks.ren π (GalKey.ren π)⟩
def bmachine (M : C69.BMachine B) : C69.BMachine B := ⟨M.S, M.cts.map (GoMap.rn π)⟩
def benv (w : C69.BEnv B) : C69.BEnv B := ⟨fun n => orders π (w.o n), fun n => BRlkMap.ren π (w.rlk n)⟩

theorem bfetch (l : List (Ct B.C)) (i : ℕ) : C69.bfetch (l.map (GoMap.rn π)) i = (C69.bfetch l i).map (GoMap.rn π) := by
  unfold C69.bfetch
  rw [List.getElem?_map]
  cases l[i]? <;> rfl

theorem bstep (K : C58.Keyring B) (w : C69.BEnv B) (n : ℕ) (M : C69.BMachine B) (c : C69.BInstr) :
    C69.bstep (keyring π K) (benv π w) n (bmachine π M) c = (C69.bstep K w n M c).map (bmachine π) := by
  have ok : ∀ (S : BScratch B) (ct : Ct B.C), (Except.ok ⟨S, (bmachine π M).cts ++ [ct.rn π]⟩ : Go (C69.BMachine B))
      = Except.map (bmachine π) (Except.ok ⟨S, M.cts ++ [ct]⟩) := fun S ct => by
    refine congrArg Except.ok ?_
    unfold bmachine
    simp
  cases c with
  | add i j =>
    exact Go.bind_ren (bfetch π M.cts i) fun a => Go.bind_ren (bfetch π M.cts j) fun b => Go.bind_ren (bfvAddNew π (w.o n 0) a b) fun r => ok M.S r
  | sub i j =>
    exact Go.bind_ren (bfetch π M.cts i) fun a => Go.bind_ren (bfetch π M.cts j) fun b => Go.bind_ren (bfvSubNew π (w.o n 0) a b) fun r => ok M.S r
  | mul i j =>
    exact Go.bind_ren (bfetch π M.cts i) fun a => Go.bind_ren (bfetch π M.cts j) fun b =>
      Go.bind_ren (bfvMulRelinNew π K.crs (w.o n 0) M.S a b (w.rlk n)) fun r => ok r.2 r.1
  | rot i r =>
    exact Go.bind_ren (bfetch π M.cts i) fun a => Go.bind_ren (bfvRotateNew π K.crs (w.o n) M.S.base a r K.rks) fun r => ok { M.S with base := r.2 } r.1
  | conj i =>
    exact Go.bind_ren (bfetch π M.cts i) fun a => Go.bind_ren (bfvConjugateNew π B.top K.crs (w.o n 0) M.S.base a K.cks) fun r => ok { M.S with base := r.2 } r.1

/-- Any program of BFV calls commutes with the renaming. -/
theorem brun (K : C58.Keyring B) (w : C69.BEnv B) (n : ℕ) (M : C69.BMachine B) (p : List C69.BInstr) :
    C69.brun (keyring π K) (benv π w) n (bmachine π M) p = (C69.brun K w n M p).map (bmachine π) := by
  induction p generalizing n M with
  | nil => rfl
  | cons c p ih => exact Go.bind_ren (bstep π K w n M c) fun M' => ih (n + 1) M'

end Bfv

/-! ## renamings from one-to-one maps -/

/-- Every one-to-one choice of new identifiers, none of them "0", for finitely many parties, is part of a renaming. -/
theorem extend (U : Finset String) (f : String → String) (h0 : "0" ∉ U) (hf : Set.InjOn f U) (hz : ∀ id ∈ U, f id ≠ "0") :
    ∃ π : Renaming, ∀ id ∈ U, π id = f id := by
  classical
  let g : String → String := fun id => if id = "0" then "0" else f id
  have hg : Set.InjOn g (insert "0" U : Finset String) := by
    intro a ha b hb h
    simp only [Finset.coe_insert, Set.mem_insert_iff, Finset.mem_coe] at ha hb
    by_cases ea : a = "0" <;> by_cases eb : b = "0"
    · rw [ea, eb]
    · exact absurd h.symm (by simp only [g, if_pos ea, if_neg eb]; exact hz b (hb.resolve_left eb))
    · exact absurd h (by simp only [g, if_pos eb, if_neg ea]; exact hz a (ha.resolve_left ea))
    · simp only [g, if_neg ea, if_neg eb] at h
      exact hf (ha.resolve_left ea) (hb.resolve_left eb) h
  let V : Finset String := insert "0" U ∪ (insert "0" U).image g
  have hcard : (Finset.univ : Finset V).card = V.card := by simp
  obtain ⟨e, he⟩ := Finset.exists_equiv_extend_of_card_eq (α := V) (t := V) (by simp) (s := (insert "0" U).subtype (· ∈ V)) (f := fun x => g x)
    (fun y hy => by
      obtain ⟨x, hx, rfl⟩ := Finset.mem_image.1 hy
      exact Finset.mem_union_right _ (Finset.mem_image_of_mem g (Finset.mem_subtype.1 hx)))
    (fun x hx y hy h => Subtype.ext (hg (Finset.mem_subtype.1 hx) (Finset.mem_subtype.1 hy) h))
  have hval : ∀ id ∈ insert "0" U, (Equiv.Perm.ofSubtype e : Equiv.Perm String) id = g id := fun id hid => by
    have hV : id ∈ V := Finset.mem_union_left _ hid
    rw [Equiv.Perm.ofSubtype_apply_of_mem e hV]
    exact he ⟨id, hV⟩ (Finset.mem_subtype.2 hid)
  refine ⟨⟨Equiv.Perm.ofSubtype e, ?_⟩, fun id hid => ?_⟩
  · rw [hval "0" (Finset.mem_insert_self _ _)]; simp [g]
  · have := hval id (Finset.mem_insert_of_mem hid)
    rw [show g id = f id from if_neg (fun h : id = "0" => h0 (by rwa [h] at hid))] at this
    exact this

end MKHE.C73
