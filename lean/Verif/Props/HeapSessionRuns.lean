import Verif.Props.HeapSession
import Verif.Props.BfvExample

set_option autoImplicit false

/-!
# C70: programs that follow the rules run

`Fits` says that a program only passes secret keys (or, to CopyNew, secret and public keys) it has made, and makes rotation keys only for indices the
CRS has. Such a program ends without a panic, so that `program_owned` is about the state it ends in. Below it a concrete program.
-/

namespace MKHE
namespace C70
open Heap Nega
variable {N : ℕ} [NeZero N] {C : Ctx N}

/-- what a key is, as far as the rules are concerned -/
inductive Kind where
  | sk
  | pk
  | eval
  deriving DecidableEq

/-- the rules; `ks` are the keys made so far, `idx` are indices with a CRS, `Bd` bounds what the samplers return -/
def Fits (B : BCtx N) (Bd : ℤ) : List Kind → List ℤ → List (Cmd N) → Prop
  | _, _, [] => True
  | ks, idx, .addCRS i :: l => Fits B Bd ks (i :: idx) l
  | ks, idx, .genSk x _ :: l => Bdd x Bd ∧ Fits B Bd (ks ++ [.sk]) idx l
  | ks, idx, .genSkGaussian _ :: l => Fits B Bd (ks ++ [.sk]) idx l
  | ks, idx, .genPk i :: l => ks[i]? = some .sk ∧ Fits B Bd (ks ++ [.pk]) idx l
  | ks, idx, .genRlk i j :: l => (ks[i]? = some .sk ∧ ks[j]? = some .sk) ∧ Fits B Bd (ks ++ [.eval]) idx l
  | ks, idx, .genBfvRlk i j :: l => (ks[i]? = some .sk ∧ ks[j]? = some .sk ∧ B.Valid) ∧ Fits B Bd (ks ++ [.eval]) idx l
  | ks, idx, .genRot r i :: l => (ks[i]? = some .sk ∧ r ∈ idx ∧ adjustIdx N r ∈ idx) ∧ Fits B Bd (ks ++ [.eval]) idx l
  | ks, idx, .genConj i :: l => ks[i]? = some .sk ∧ Fits B Bd (ks ++ [.eval]) idx l
  | ks, idx, .copy i :: l => ∃ k, (k = .sk ∨ k = .pk) ∧ ks[i]? = some k ∧ Fits B Bd (ks ++ [k]) idx l

/-- a key of this kind; secret keys encode a polynomial -/
def IsKind : Val C → Kind → Prop
  | .sk k, .sk => ∃ s, k.Is s
  | .pk _, .pk => True
  | .rlk _, .eval => True
  | .gal _, .eval => True
  | .brlk _, .eval => True
  | _, _ => False

variable {B : BCtx N}

/-- the state of a program on values that has followed the rules -/
structure Good (V : VState B.C) (ks : List Kind) (idx : List ℤ) : Prop where
  len : CrsLen B.C V.crs
  mem : ∀ k ∈ idx, k ∈ V.crs
  keys : List.Forall₂ IsKind V.keys ks

theorem Good.get {V : VState B.C} {ks : List Kind} {idx : List ℤ} (a : Good V ks idx) {i : ℕ} {k : Kind} (h : ks[i]? = some k) :
    ∃ v, V.keys[i]? = some v ∧ IsKind v k := by
  obtain ⟨l, e⟩ := List.getElem?_eq_some_iff.mp h
  have l' : i < V.keys.length := by rw [a.keys.length_eq]; exact l
  have := a.keys.get l' l
  simp only [List.get_eq_getElem, e] at this
  exact ⟨_, List.getElem?_eq_getElem l', this⟩

theorem Good.sk {V : VState B.C} {ks : List Kind} {idx : List ℤ} (a : Good V ks idx) {i : ℕ} (h : ks[i]? = some .sk) :
    ∃ k s, Val.getSk V.keys i = .ok k ∧ k.Is s := by
  obtain ⟨v, e, hv⟩ := a.get h
  unfold Val.getSk
  rw [e]
  cases v with
  | sk k => obtain ⟨s, hs⟩ := hv; exact ⟨k, s, rfl, hs⟩
  | _ => exact hv.elim

theorem Good.push {V : VState B.C} {ks : List Kind} {idx : List ℤ} (a : Good V ks idx) {v : Val B.C} {k : Kind} {st : KG B.C} (h : IsKind v k) :
    Good { V with keys := V.keys ++ [v], kg := st } (ks ++ [k]) idx :=
  ⟨a.len, a.mem, List.rel_append a.keys (List.Forall₂.cons h List.Forall₂.nil)⟩

theorem Good.crs {V : VState B.C} {ks : List Kind} {idx : List ℤ} (a : Good V ks idx) {us : ℕ → PolyQP B.C} {gs : ℕ → Nega N ℤ} (i : ℤ) :
    ∃ V', valStep us gs V (.addCRS i) = .ok V' ∧ Good V' ks (i :: idx) := by
  refine ⟨_, rfl, fun k s e => ?_, fun k hk => ?_, a.keys⟩
  · rw [GoMap.lookup_insert'] at e
    split at e
    · cases e; exact le_rfl
    · exact a.len k s e
  · rw [GoMap.mem_iff_lookup, GoMap.lookup_insert']
    split
    · rfl
    · rename_i hki
      rcases List.mem_cons.mp hk with rfl | hk
      · exact absurd rfl hki
      · exact GoMap.mem_iff_lookup.mp (a.mem k hk)

/-- **a program that follows the rules** does not panic -/
theorem fits_runs (V : B.C.Valid) {Bd : ℤ} (hB : B.C.SmallBound Bd) (us : ℕ → PolyQP B.C) {gs : ℕ → Nega N ℤ} (hg : ∀ n, Bdd (gs n) Bd)
    (cmds : List (Cmd N)) :
    ∀ (S : VState B.C) (ks : List Kind) (idx : List ℤ), Good S ks idx → (∀ k ∈ [(0 : ℤ), -1, -2, -3], k ∈ idx) → Fits B Bd ks idx cmds →
      ∃ S', Go.loop (valStep us gs) S cmds = .ok S' := by
  induction cmds with
  | nil => intro S ks idx _ _ _; exact ⟨S, rfl⟩
  | cons c l ih =>
    intro S ks idx a d f
    have cont : ∀ S1 ks1 idx1, valStep us gs S c = .ok S1 → Good S1 ks1 idx1 → (∀ k ∈ [(0 : ℤ), -1, -2, -3], k ∈ idx1) → Fits B Bd ks1 idx1 l →
        ∃ S', Go.loop (valStep us gs) S (c :: l) = .ok S' := by
      intro S1 ks1 idx1 e a1 d1 f1
      obtain ⟨S', e'⟩ := ih S1 ks1 idx1 a1 d1 f1
      exact ⟨S', by rw [Go.loop_cons, e]; exact e'⟩
    have hb : 0 < B.C.beta (B.C.nQ - 1) := V.beta_pos (by have := V.q1; omega)
    have c0 := a.mem 0 (d 0 (by simp))
    have c1 := a.mem (-1) (d (-1) (by simp))
    have c2 := a.mem (-2) (d (-2) (by simp))
    have c3 := a.mem (-3) (d (-3) (by simp))
    cases c with
    | addCRS i =>
      obtain ⟨S1, e, a1⟩ := a.crs (us := us) (gs := gs) i
      exact cont S1 ks (i :: idx) e a1 (fun k hk => List.mem_cons_of_mem _ (d k hk)) f
    | genSk x id => exact cont _ _ idx rfl (a.push (v := .sk (genSecretKeyFromSampler x id)) (k := .sk) (st := S.kg) ⟨x, genSecretKey_is V hB f.1 id⟩) d f.2
    | genSkGaussian id =>
      exact cont _ _ idx rfl (a.push (v := .sk (genSecretKeyFromSampler (gs S.kg.pos) id)) (k := .sk) (st := { S.kg with pos := S.kg.pos + 1 })
        ⟨_, genSecretKey_is V hB (hg _) id⟩) d f
    | genPk i =>
      obtain ⟨k, s, e, hs⟩ := a.sk f.1
      obtain ⟨w, e1⟩ := (C16.publicKey_outcome gs S.kg k a.len hb).mpr c0
      refine cont { S with keys := S.keys ++ [.pk w.1], kg := w.2 } (ks ++ [.pk]) idx ?_ (a.push (v := .pk w.1) (k := .pk) (st := w.2) trivial) d f.2
      show (Val.getSk S.keys i >>= _) = _
      rw [e]
      show (genPublicKey S.crs gs S.kg k >>= _) = _
      rw [e1]; rfl
    | genRlk i j =>
      obtain ⟨k, s, e, hs⟩ := a.sk f.1.1
      obtain ⟨r, s', e', hr⟩ := a.sk f.1.2
      obtain ⟨w, e1⟩ := (C16.relinearizationKey_outcome V hB hg S.kg hs hr a.len).mpr ⟨c0, c1⟩
      refine cont { S with keys := S.keys ++ [.rlk w.1], kg := w.2 } (ks ++ [.eval]) idx ?_ (a.push (v := .rlk w.1) (k := .eval) (st := w.2) trivial) d f.2
      show (Val.getSk S.keys i >>= _) = _
      rw [e]
      show (Val.getSk S.keys j >>= _) = _
      rw [e']
      show (genRelinearizationKey S.crs gs S.kg k r >>= _) = _
      rw [e1]; rfl
    | genBfvRlk i j =>
      obtain ⟨k, s, e, hs⟩ := a.sk f.1.1
      obtain ⟨r, s', e', hr⟩ := a.sk f.1.2.1
      obtain ⟨x0, h0⟩ := Option.isSome_iff_exists.mp (GoMap.mem_iff_lookup.mp c0)
      obtain ⟨x1, h1⟩ := Option.isSome_iff_exists.mp (GoMap.mem_iff_lookup.mp c1)
      obtain ⟨x3, h3⟩ := Option.isSome_iff_exists.mp (GoMap.mem_iff_lookup.mp c3)
      obtain ⟨rl, st, e1, -⟩ := C44.relinearizationKey f.1.2.2 hB hg S.kg hs hr h0 h3 h1 (a.len _ _ h0) (a.len _ _ h3) (a.len _ _ h1)
      refine cont { S with keys := S.keys ++ [.brlk rl], kg := st } (ks ++ [.eval]) idx ?_ (a.push (v := .brlk rl) (k := .eval) (st := st) trivial) d f.2
      show (Val.getSk S.keys i >>= _) = _
      rw [e]
      show (Val.getSk S.keys j >>= _) = _
      rw [e']
      show (genBfvRelinearizationKey S.crs gs S.kg k r >>= _) = _
      rw [e1]; rfl
    | genRot r i =>
      obtain ⟨k, s, e, hs⟩ := a.sk f.1.1
      obtain ⟨rk, st, e1, -⟩ := (C16.rotationKey_outcome gs S.kg k a.len r).2.2 (a.mem _ f.1.2.1) (a.mem _ f.1.2.2)
      refine cont { S with keys := S.keys ++ [.gal rk], kg := st } (ks ++ [.eval]) idx ?_ (a.push (v := .gal rk) (k := .eval) (st := st) trivial) d f.2
      show (Val.getSk S.keys i >>= _) = _
      rw [e]
      show (genRotationKey S.crs gs S.kg r k >>= _) = _
      rw [e1]; rfl
    | genConj i =>
      obtain ⟨k, s, e, hs⟩ := a.sk f.1
      obtain ⟨w, e1⟩ := (C16.conjugationKey_outcome gs S.kg k a.len).mpr c2
      refine cont { S with keys := S.keys ++ [.gal w.1], kg := w.2 } (ks ++ [.eval]) idx ?_ (a.push (v := .gal w.1) (k := .eval) (st := w.2) trivial) d f.2
      show (Val.getSk S.keys i >>= _) = _
      rw [e]
      show (genConjugationKey S.crs gs S.kg k >>= _) = _
      rw [e1]; rfl
    | copy i =>
      obtain ⟨k, hk, e, f'⟩ := f
      obtain ⟨v, ev, hv⟩ := a.get e
      have key : valStep us gs S (.copy i) = .ok { S with keys := S.keys ++ [v] } := by
        show (match S.keys[i]? with
          | some (.sk k) => _
          | some (.pk k) => _
          | _ => _) = _
        rw [ev]
        rcases hk with rfl | rfl <;> cases v <;> first | rfl | exact hv.elim
      exact cont _ (ks ++ [k]) idx key (a.push (st := S.kg) hv) d f'

/-- **a program that follows the rules** ends, from every well-formed memory, with every key owning its memory -/
theorem program_runs (V : B.C.Valid) {Bd : ℤ} (hB : B.C.SmallBound Bd) (us : ℕ → PolyQP B.C) {gs : ℕ → Nega N ℤ} (hg : ∀ n, Bdd (gs n) Bd)
    {cmds : List (Cmd N)} (f : Fits B Bd [] (crsIdxs B.C.logN) cmds) {h0 : Heap N} (W : WF h0) :
    ∃ S K s, valRun us gs cmds = .ok S ∧ heapRun B us gs cmds h0 = .ok (K, s) ∧ Owned B.C h0 K S s := by
  have init : ∀ (l : List ℤ) (S : VState B.C) (idx : List ℤ), Good S [] idx → ∃ S', Go.loop (fun s i => valStep us gs s (.addCRS i)) S l = .ok S' ∧
      ∃ idx', Good S' [] idx' ∧ ∀ k, k ∈ idx ∨ k ∈ l → k ∈ idx' := by
    intro l
    induction l with
    | nil => intro S idx a; exact ⟨S, rfl, idx, a, fun k hk => by simpa using hk⟩
    | cons i l ih =>
      intro S idx a
      obtain ⟨S1, e, a1⟩ := a.crs (us := us) (gs := gs) i
      obtain ⟨S', e', idx', a', hm⟩ := ih S1 (i :: idx) a1
      refine ⟨S', by rw [Go.loop_cons, e]; exact e', idx', a', fun k hk => hm k ?_⟩
      rcases hk with hk | hk
      · exact Or.inl (List.mem_cons_of_mem _ hk)
      · rcases List.mem_cons.mp hk with rfl | hk
        · exact Or.inl (List.mem_cons_self ..)
        · exact Or.inr hk
  obtain ⟨S1, e1, idx1, a1, m1⟩ := init (crsIdxs B.C.logN) ⟨∅, 0, ⟨0, fun _ => Limb.zero, PolyQP.zero⟩, []⟩ []
    ⟨(fun k s e => by cases e), (fun k hk => by cases hk), List.Forall₂.nil⟩
  have a2 : Good S1 [] (crsIdxs B.C.logN) := ⟨a1.len, fun k hk => a1.mem k (m1 k (Or.inr hk)), a1.keys⟩
  obtain ⟨S, e2⟩ := fits_runs V hB us hg cmds S1 [] (crsIdxs B.C.logN) a2 (fun k hk => by unfold crsIdxs; simp at hk ⊢; omega) f
  have ev : valRun us gs cmds = .ok S := by unfold valRun; rw [e1]; exact e2
  have rel := program_owned V.q1 us gs cmds W
  rw [ev] at rel
  cases eh : heapRun B us gs cmds h0 with
  | error err => rw [eh] at rel; exact rel.elim
  | ok w => rw [eh] at rel; exact ⟨S, w.1, w.2, ev, rfl, rel⟩


/-! ## a concrete program -/

/-- two parties of the BFV example: secret keys, public keys, relinearization keys of both schemes, a rotation key, one for an index added later,
conjugation keys, copies -/
def exProg : List (Cmd 16) :=
  [.genSk (Ex.sec "a") "a", .genSk (Ex.sec' "a") "a", .genPk 0, .genRlk 0 1, .genBfvRlk 0 1, .genRot 2 0, .addCRS 3, .genRot 3 0, .genConj 0, .copy 0, .copy 2,
    .genSkGaussian "b", .genPk 10, .genBfvRlk 10 10]

theorem exProg_fits (fm : FloatModel) : Fits (BEx.bctx fm) 2 [] (crsIdxs 4) exProg := by
  have b1 : Bdd (Ex.sec "a") 2 := (Ex.sec_bdd "a").mono (by norm_num)
  have b2 : Bdd (Ex.sec' "a") 2 := (Ex.sec'_bdd "a").mono (by norm_num)
  have v := BEx.valid fm
  refine ⟨b1, b2, rfl, ⟨rfl, rfl⟩, ⟨rfl, rfl, v⟩, ⟨rfl, by decide, by decide⟩, ⟨rfl, by decide, by decide⟩, rfl, .sk, Or.inl rfl, rfl, .pk, Or.inr rfl, rfl,
    rfl, ⟨rfl, rfl, v⟩, trivial⟩

/-- the program runs: 13 keys, each with its own memory -/
theorem exProg_runs (fm : FloatModel) (us : ℕ → PolyQP (BEx.qp fm)) {gs : ℕ → Nega 16 ℤ} (hg : ∀ n, Bdd (gs n) 2) :
    ∃ S K s, valRun (B := BEx.bctx fm) us gs exProg = .ok S ∧ heapRun (BEx.bctx fm) us gs exProg Heap.empty = .ok (K, s) ∧
      Owned (BEx.qp fm) Heap.empty K S s :=
  program_runs (B := BEx.bctx fm) (BEx.valid_qp fm) (Bd := 2)
    { q0 := by show (2 * 2 : ℤ) < ((BEx.bq 0 : ℕ) : ℤ); simp [BEx.bq]
      p := fun j _ => by show (2 : ℤ) ≤ ((BEx.bp j : ℕ) : ℤ); unfold BEx.bp; split_ifs <;> norm_num } us hg
    (exProg_fits fm) Heap.empty_wf

end C70
end MKHE
