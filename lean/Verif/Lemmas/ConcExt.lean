import Verif.Lemmas.Conc
import Verif.Lemmas.Congr

set_option autoImplicit false

/-!
# The functions of an extender as goroutines: solitary runs and footprints
-/

namespace MKHE

theorem Go.fill_inv {ι β : Type*} [DecidableEq ι] {f : ι → Go β} {l : List ι} : ∀ {s o : ι → β}, l.Nodup → Go.fill f s l = .ok o →
    (∀ a ∈ l, f a = .ok (o a)) ∧ ∀ a ∉ l, o a = s a := by
  induction l with
  | nil => intro s o _ h; cases h; exact ⟨(fun a ha => by cases ha), fun _ _ => rfl⟩
  | cons b l ih =>
    intro s o nd h
    obtain ⟨nb, nd⟩ := List.nodup_cons.mp nd
    unfold Go.fill at h
    rw [Go.loop_cons] at h
    cases hb : f b with
    | error e => rw [hb] at h; cases h
    | ok v =>
      rw [hb] at h
      obtain ⟨h1, h2⟩ := ih (s := Function.update s b v) nd h
      refine ⟨fun a ha => ?_, fun a ha => ?_⟩
      · rcases List.mem_cons.mp ha with rfl | ha
        · rw [hb, h2 a nb, Function.update_self]
        · exact h1 a ha
      · rw [h2 a fun hh => ha (List.mem_cons_of_mem _ hh), Function.update_of_ne]
        rintro rfl
        exact ha (List.mem_cons_self ..)

namespace Conc
open Prog

section up
variable {fm : FloatModel} {n : ℕ} {Q : ℕ → ℕ} {m : ℕ} {P : ℕ → ℕ} {pr : ModUpParams}

theorem upWord_congr {a a' : ℕ → ℕ} (h : ∀ i < n, a i = a' i) (j : ℕ) : upWord fm n Q P pr a j = upWord fm n Q P pr a' j := by
  unfold upWord
  rcases reconstruct_congr fm n a a' Q pr.qoverqiinvqi h with ⟨e, h1, h2⟩ | ⟨y, y', v, h1, h2, h3⟩
  · rw [h1, h2]
  · rw [h1, h2]
    simp only [Go.andThen_ok]
    congr 1; funext vt; congr 1; funext qo
    exact multSum_congr _ _ _ _ _ _ _ _ h3

/-- a call of `modUpExact` that returns, word by word -/
theorem modUpExact_words {a out o : ℕ → ℕ} (h : modUpExact fm n Q m P pr a out = .ok o) :
    (∃ y, reconstructRNS fm n a Q pr.qoverqiinvqi = .ok y) ∧ (∀ j < m, upWord fm n Q P pr a j = .ok (o j)) ∧ ∀ j, m ≤ j → o j = out j := by
  unfold modUpExact at h
  cases hr : reconstructRNS fm n a Q pr.qoverqiinvqi with
  | error e => rw [hr] at h; cases h
  | ok y =>
    rw [hr, Go.andThen_ok] at h
    obtain ⟨h1, h2⟩ := Go.fill_inv List.nodup_range h
    refine ⟨⟨y, rfl⟩, fun j hj => ?_, fun j hj => h2 j (by simpa using hj)⟩
    unfold upWord
    rw [hr, Go.andThen_ok]
    exact h1 j (List.mem_range.mpr hj)

theorem lanes_ok {f : ℕ → Go ℕ} {g : ℕ → ℕ} (h : ∀ l < 8, f l = .ok (g l)) : ∃ w, lanes f = .ok w ∧ ∀ l < 8, w l = g l := by
  refine ⟨_, Go.fill_ok f g _ _ fun l hl => h l (List.mem_range.mp hl), fun l hl => ?_⟩
  rw [if_pos (List.mem_range.mpr hl)]

theorem wrLanes_run (p j x : ℕ) (w : ℕ → ℕ) (M : Mem) : ∃ M', (wrLanes p j x w).run M = .ok ((), M') ∧ (∀ l < 8, M' ⟨p, j, x + l⟩ = w l) ∧
    ∀ a : Addr, ¬ (a.poly = p ∧ a.row = j ∧ x ≤ a.coef ∧ a.coef < x + 8) → M' a = M a := by
  obtain ⟨M', e, h1, h2⟩ := run_each_inv (fun l => Prog.wr ⟨p, j, x + l⟩ (w l) (Prog.ret ()))
    (fun pre M' => (∀ l ∈ pre, M' ⟨p, j, x + l⟩ = w l) ∧ ∀ a : Addr, ¬ (a.poly = p ∧ a.row = j ∧ x ≤ a.coef ∧ a.coef < x + 8) → M' a = M a)
    (List.range 8) M ⟨(fun l hl => by cases hl), fun _ _ => rfl⟩ (by
      intro pre l suf M1 hl ⟨i1, i2⟩
      have h8 : l < 8 := List.mem_range.mp (by rw [hl]; simp)
      refine ⟨_, rfl, fun k hk => ?_, fun a ha => ?_⟩
      · by_cases hkl : k = l
        · subst hkl; exact Function.update_self ..
        · rw [Function.update_of_ne (by intro e; injection e with _ _ e; exact hkl (by omega))]
          refine i1 k ?_
          rcases List.mem_append.mp hk with hk | hk
          · exact hk
          · exact absurd (List.mem_singleton.mp hk) hkl
      · rw [Function.update_of_ne (by rintro rfl; exact ha ⟨rfl, rfl, by simp, by simpa using h8⟩)]
        exact i2 a ha)
  exact ⟨M', e, fun l hl => h1 l (List.mem_range.mpr hl), h2⟩

theorem mem_blockAddrs {p n x : ℕ} {a : Addr} : a ∈ blockAddrs p n x ↔ a.poly = p ∧ a.row < n ∧ x ≤ a.coef ∧ a.coef < x + 8 := by
  unfold blockAddrs
  simp only [List.mem_flatMap, List.mem_range, List.mem_map]
  constructor
  · rintro ⟨i, hi, l, hl, rfl⟩
    exact ⟨rfl, hi, by simp, by simpa using hl⟩
  · rintro ⟨h1, h2, h3, h4⟩
    refine ⟨a.row, h2, a.coef - x, by omega, ?_⟩
    obtain ⟨p', r, c⟩ := a
    dsimp only at h1 h3 ⊢
    rw [h1, Nat.add_sub_cancel' h3]

theorem upBlock_run (src dst x : ℕ) (M : Mem) {r : ℕ → ℕ → ℕ}
    (h : ∀ l < 8, modUpExact fm n Q m P pr (fun i => M ⟨src, i, x + l⟩) (fun j => M ⟨dst, j, x + l⟩) = .ok (r l)) :
    ∃ M', (upBlock fm n Q m P pr src dst x).run M = .ok ((), M') ∧ (∀ j < m, ∀ l < 8, M' ⟨dst, j, x + l⟩ = r l j) ∧
      ∀ a : Addr, ¬ (a.poly = dst ∧ a.row < m ∧ x ≤ a.coef ∧ a.coef < x + 8) → M' a = M a := by
  obtain ⟨w, e1, w1, -⟩ := run_rdAll (blockAddrs src n x) M (fun _ => 0)
  have hw : ∀ l < 8, ∀ i < n, w ⟨src, i, x + l⟩ = M ⟨src, i, x + l⟩ := fun l hl i hi => w1 _ (mem_blockAddrs.mpr ⟨rfl, hi, by simp, by simpa using hl⟩)
  obtain ⟨z0, e2, -⟩ := lanes_ok (f := fun l => Go.andThen (reconstructRNS fm n (fun i => w ⟨src, i, x + l⟩) Q pr.qoverqiinvqi) fun _ => .ok 0)
    (g := fun _ => 0) (by
      intro l hl
      obtain ⟨⟨y, hy⟩, -⟩ := modUpExact_words (h l hl)
      rcases reconstruct_congr fm n (fun i => w ⟨src, i, x + l⟩) (fun i => M ⟨src, i, x + l⟩) Q pr.qoverqiinvqi (hw l hl) with ⟨e, h1, h2⟩ | ⟨y1, y2, v, h1, h2, h3⟩
      · rw [h2] at hy; cases hy
      · rw [h1]; rfl)
  obtain ⟨M', e3, i1, i2⟩ := run_each_inv (fun j => (Prog.lift (lanes fun l => upWord fm n Q P pr (fun i => w ⟨src, i, x + l⟩) j)).bind (wrLanes dst j x))
    (fun pre M' => (∀ j ∈ pre, ∀ l < 8, M' ⟨dst, j, x + l⟩ = r l j) ∧ ∀ a : Addr, ¬ (a.poly = dst ∧ a.row < m ∧ x ≤ a.coef ∧ a.coef < x + 8) → M' a = M a)
    (List.range m) M ⟨(fun l hl => by cases hl), fun _ _ => rfl⟩ (by
      intro pre j suf M1 hl ⟨i1, i2⟩
      have hj : j < m := List.mem_range.mp (by rw [hl]; simp)
      obtain ⟨z, ez, hz⟩ := lanes_ok (f := fun l => upWord fm n Q P pr (fun i => w ⟨src, i, x + l⟩) j) (g := fun l => r l j) (fun l hl => by
        rw [upWord_congr (hw l hl)]
        exact (modUpExact_words (h l hl)).2.1 j hj)
      obtain ⟨M2, e4, k1, k2⟩ := wrLanes_run dst j x z M1
      refine ⟨M2, ?_, fun j' hj' l hl8 => ?_, fun a ha => ?_⟩
      · rw [run_bind, run_lift_ok ez]; exact e4
      · by_cases hjj : j' = j
        · subst hjj; rw [k1 l hl8, hz l hl8]
        · rw [k2 _ fun hh => hjj hh.2.1]
          refine i1 j' ?_ l hl8
          rcases List.mem_append.mp hj' with hj' | hj'
          · exact hj'
          · exact absurd (List.mem_singleton.mp hj') hjj
      · rw [k2 a fun hh => ha ⟨hh.1, by omega, hh.2.2⟩]
        exact i2 a ha)
  refine ⟨M', ?_, fun j hj => i1 j (List.mem_range.mpr hj), i2⟩
  show ((rdAll (blockAddrs src n x) fun _ => 0).bind _).run M = _
  rw [run_bind, e1]
  show ((Prog.lift _).bind _).run M = _
  rw [run_bind, run_lift_ok e2]
  exact e3

/-- **`modUpExact` as a goroutine running alone** computes, coefficient by coefficient, what `modUpExact` does -/
theorem upProg_run (b src dst : ℕ) (M : Mem) {r : ℕ → ℕ → ℕ}
    (h : ∀ x < 8 * b, modUpExact fm n Q m P pr (fun i => M ⟨src, i, x⟩) (fun j => M ⟨dst, j, x⟩) = .ok (r x)) :
    ∃ M', (upProg (8 * b) fm n Q m P pr src dst).run M = .ok ((), M') ∧ (∀ j < m, ∀ x < 8 * b, M' ⟨dst, j, x⟩ = r x j) ∧
      ∀ a : Addr, ¬ (a.poly = dst ∧ a.row < m ∧ a.coef < 8 * b) → M' a = M a := by
  unfold upProg
  rw [Nat.mul_div_cancel_left b (by norm_num)]
  obtain ⟨M', e, i1, i2⟩ := run_each_inv (fun k => upBlock fm n Q m P pr src dst (8 * k))
    (fun pre M' => (∀ j < m, ∀ x < 8 * pre.length, M' ⟨dst, j, x⟩ = r x j) ∧ ∀ a : Addr, ¬ (a.poly = dst ∧ a.row < m ∧ a.coef < 8 * pre.length) → M' a = M a)
    (List.range b) M ⟨(fun j hj x hx => absurd hx (by simp)), fun _ _ => rfl⟩ (by
      intro pre k suf M1 hl ⟨i1, i2⟩
      have hk : k = pre.length := by
        have := congrArg (fun l => l[pre.length]?) hl
        simp only [List.getElem?_append_right (le_refl _), Nat.sub_self, List.getElem?_cons_zero] at this
        have hlt : pre.length < b := by
          have := congrArg List.length hl
          simp at this; omega
        rw [List.getElem?_range hlt] at this
        exact (Option.some.inj this).symm
      subst hk
      have hlt : pre.length < b := by
        have := congrArg List.length hl
        simp at this; omega
      obtain ⟨M2, e2, k1, k2⟩ := upBlock_run (fm := fm) (n := n) (Q := Q) (m := m) (P := P) (pr := pr) src dst (8 * pre.length) M1
        (r := fun l => r (8 * pre.length + l)) (fun l hl => by
          have := h (8 * pre.length + l) (by omega)
          rw [← this]
          congr 1
          · funext i; exact i2 _ (by rintro ⟨-, -, h3⟩; dsimp only at h3; omega)
          · funext i; exact i2 _ (by rintro ⟨-, -, h3⟩; dsimp only at h3; omega))
      refine ⟨M2, e2, fun j hj x hx => ?_, fun a ha => ?_⟩
      · rw [List.length_append, List.length_singleton] at hx
        by_cases hx' : x < 8 * pre.length
        · rw [k2 _ (by rintro ⟨-, -, h3, -⟩; dsimp only at h3; omega)]
          exact i1 j hj x hx'
        · obtain ⟨l, rfl⟩ : ∃ l, x = 8 * pre.length + l := ⟨x - 8 * pre.length, by omega⟩
          exact k1 j hj l (by omega)
      · rw [List.length_append, List.length_singleton] at ha
        rw [k2 _ (fun hh => ha ⟨hh.1, hh.2.1, by omega⟩)]
        exact i2 a (fun hh => ha ⟨hh.1, hh.2.1, by omega⟩))
  rw [List.length_range] at i1 i2
  exact ⟨M', e, i1, i2⟩

theorem upProg_foot (N src dst : ℕ) {R W : Set Addr} (hs : ∀ a : Addr, a.poly = src → a ∈ R ∨ a ∈ W) (hd : ∀ a : Addr, a.poly = dst → a ∈ W) :
    (upProg N fm n Q m P pr src dst).Foot R W := by
  refine foot_each fun k _ => foot_bind (foot_rdAll (fun a ha => hs a (mem_blockAddrs.mp ha).1) _) fun w => foot_bind (foot_lift _) fun _ =>
    foot_each fun j _ => foot_bind (foot_lift _) fun z => foot_each fun l _ => ⟨hd _ rfl, trivial⟩

end up

section down
variable {Q : ℕ → ℕ} {tab : List (List ℕ)} {k : ℕ}

theorem downRow_run (N p1 pool p2 i : ℕ) (M : Mem) {param : ℕ} (hp : (Go.andThen (Go.idx tab k) fun row => Go.idx row i) = .ok param) :
    ∃ M', (downRow N Q tab k p1 pool p2 i).run M = .ok ((), M') ∧
      (∀ x < N, M' ⟨p2, i, x⟩ = modDownStep (Q i) (M ⟨p1, i, x⟩) (M ⟨pool, i, x⟩) param) ∧
      ∀ a : Addr, ¬ (a.poly = p2 ∧ a.row = i ∧ a.coef < N) → M' a = M a := by
  obtain ⟨M', e, i1, i2⟩ := run_each_inv (fun x => downWord (Q i) param p1 pool p2 i x)
    (fun pre M' => (∀ x ∈ pre, M' ⟨p2, i, x⟩ = modDownStep (Q i) (M ⟨p1, i, x⟩) (M ⟨pool, i, x⟩) param) ∧
      ∀ a : Addr, ¬ (a.poly = p2 ∧ a.row = i ∧ a.coef ∈ pre) → M' a = M a)
    (List.range N) M ⟨(fun l hl => by cases hl), fun _ _ => rfl⟩ (by
      intro pre x suf M1 hl ⟨i1, i2⟩
      have nx : x ∉ pre := by
        have nd := List.nodup_range (n := N)
        rw [hl] at nd
        intro hx
        exact (List.disjoint_of_nodup_append nd) hx (List.mem_cons_self ..)
      refine ⟨_, rfl, fun y hy => ?_, fun a ha => ?_⟩
      · by_cases hxy : y = x
        · subst hxy
          rw [Function.update_self, i2 ⟨p1, i, y⟩ (fun hh => nx hh.2.2), i2 ⟨pool, i, y⟩ (fun hh => nx hh.2.2)]
        · rw [Function.update_of_ne (by intro e; injection e with _ _ e; exact hxy e)]
          refine i1 y ?_
          rcases List.mem_append.mp hy with hy | hy
          · exact hy
          · exact absurd (List.mem_singleton.mp hy) hxy
      · rw [Function.update_of_ne (by rintro rfl; exact ha ⟨rfl, rfl, by simp⟩)]
        exact i2 a fun hh => ha ⟨hh.1, hh.2.1, List.mem_append_left _ hh.2.2⟩)
  refine ⟨M', ?_, fun x hx => i1 x (List.mem_range.mpr hx), fun a ha => i2 a fun hh => ha ⟨hh.1, hh.2.1, List.mem_range.mp hh.2.2⟩⟩
  show ((Prog.lift _).bind _).run M = _
  rw [run_bind, run_lift_ok hp]
  exact e

theorem downRows_run (N p1 pool p2 n : ℕ) (M : Mem) {param : ℕ → ℕ} (hp : ∀ i < n, (Go.andThen (Go.idx tab k) fun row => Go.idx row i) = .ok (param i)) :
    ∃ M', (each (downRow N Q tab k p1 pool p2) (List.range n)).run M = .ok ((), M') ∧
      (∀ i < n, ∀ x < N, M' ⟨p2, i, x⟩ = modDownStep (Q i) (M ⟨p1, i, x⟩) (M ⟨pool, i, x⟩) (param i)) ∧
      ∀ a : Addr, ¬ (a.poly = p2 ∧ a.row < n ∧ a.coef < N) → M' a = M a := by
  obtain ⟨M', e, i1, i2⟩ := run_each_inv (downRow N Q tab k p1 pool p2)
    (fun pre M' => (∀ i ∈ pre, ∀ x < N, M' ⟨p2, i, x⟩ = modDownStep (Q i) (M ⟨p1, i, x⟩) (M ⟨pool, i, x⟩) (param i)) ∧
      ∀ a : Addr, ¬ (a.poly = p2 ∧ a.row ∈ pre ∧ a.coef < N) → M' a = M a)
    (List.range n) M ⟨(fun l hl => by cases hl), fun _ _ => rfl⟩ (by
      intro pre i suf M1 hl ⟨i1, i2⟩
      have hi : i < n := List.mem_range.mp (by rw [hl]; simp)
      have nx : i ∉ pre := by
        have nd := List.nodup_range (n := n)
        rw [hl] at nd
        intro hx
        exact (List.disjoint_of_nodup_append nd) hx (List.mem_cons_self ..)
      obtain ⟨M2, e2, k1, k2⟩ := downRow_run (Q := Q) N p1 pool p2 i M1 (hp i hi)
      refine ⟨M2, e2, fun j hj x hx => ?_, fun a ha => ?_⟩
      · by_cases hij : j = i
        · subst hij
          rw [k1 x hx, i2 ⟨p1, j, x⟩ (fun hh => nx hh.2.1), i2 ⟨pool, j, x⟩ (fun hh => nx hh.2.1)]
        · rw [k2 _ fun hh => hij hh.2.1]
          refine i1 j ?_ x hx
          rcases List.mem_append.mp hj with hj | hj
          · exact hj
          · exact absurd (List.mem_singleton.mp hj) hij
      · rw [k2 a fun hh => ha ⟨hh.1, by rw [hh.2.1]; simp, hh.2.2⟩]
        exact i2 a fun hh => ha ⟨hh.1, List.mem_append_left _ hh.2.1, hh.2.2⟩)
  exact ⟨M', e, fun i hi => i1 i (List.mem_range.mpr hi), fun a ha => i2 a fun hh => ha ⟨hh.1, List.mem_range.mp hh.2.1, hh.2.2⟩⟩

theorem downRow_foot (N p1 pool p2 i : ℕ) {R W : Set Addr} (h1 : ∀ a : Addr, a.poly = p1 → a ∈ R ∨ a ∈ W) (hp : ∀ a : Addr, a.poly = pool → a ∈ R ∨ a ∈ W)
    (h2 : ∀ a : Addr, a.poly = p2 → a ∈ W) : (downRow N Q tab k p1 pool p2 i).Foot R W :=
  foot_bind (foot_lift _) fun _ => foot_each fun _ _ => ⟨hp _ rfl, fun _ => ⟨h1 _ rfl, fun _ => ⟨h2 _ rfl, trivial⟩⟩⟩

end down
end Conc
end MKHE
