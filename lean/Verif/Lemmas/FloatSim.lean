import Verif.Lemmas.Float
import Verif.Model.Measure
import Verif.Lemmas.Average

/-! # `Ensemble` with rounded arithmetic, compared with exact arithmetic -/

set_option linter.unusedSectionVars false

namespace Verif.Ens

open Verif Outcome Nd

variable {rnd : ℚ → ℚ}

/-- Integers up to `2 ^ 53` are not rounded. -/
def ExactInts (rnd : ℚ → ℚ) : Prop := ∀ n : ℤ, |n| ≤ 2 ^ 53 → rnd n = n

/-- The same integer, at most `c`. -/
def Same (c : ℤ) (a : Fl rnd) (b : ℚ) : Prop := ∃ n : ℤ, a = ⟨n⟩ ∧ b = n ∧ |n| ≤ c

theorem Same.mono {c c' : ℤ} {a : Fl rnd} {b : ℚ} (h : Same c a b) (hc : c ≤ c') : Same c' a b := by
  obtain ⟨n, h1, h2, h3⟩ := h
  exact ⟨n, h1, h2, h3.trans hc⟩

theorem Same.nonneg {c : ℤ} {a : Fl rnd} {b : ℚ} (h : Same c a b) : 0 ≤ c := by
  obtain ⟨n, -, -, h⟩ := h
  exact (abs_nonneg n).trans h

theorem same_zero {c : ℤ} (hc : 0 ≤ c) : Same c (0 : Fl rnd) 0 := ⟨0, rfl, by simp, by simpa using hc⟩

theorem same_one : Same 1 (1 : Fl rnd) 1 := ⟨1, by ext; simp; rfl, by simp, by simp⟩

theorem same_int (hr : ExactInts rnd) {n : ℤ} {c : ℤ} (h : |n| ≤ c) (hc : c ≤ 2 ^ 53) : Same c (n : Fl rnd) (n : ℚ) :=
  ⟨n, by ext; exact hr n (h.trans hc), rfl, h⟩

theorem same_nat (hr : ExactInts rnd) {n : ℕ} {c : ℤ} (h : (n : ℤ) ≤ c) (hc : c ≤ 2 ^ 53) :
    Same c (n : Fl rnd) (n : ℚ) := by
  refine ⟨n, ?_, by simp, by simpa using h⟩
  ext
  have := hr n (by simpa using h.trans hc)
  exact_mod_cast this

theorem Same.add (hr : ExactInts rnd) {c c' : ℤ} {a a' : Fl rnd} {b b' : ℚ} (h : Same c a b) (h' : Same c' a' b')
    (hc : c + c' ≤ 2 ^ 53) : Same (c + c') (a + a') (b + b') := by
  obtain ⟨n, rfl, rfl, h3⟩ := h
  obtain ⟨m, rfl, rfl, h6⟩ := h'
  have hb : |n + m| ≤ c + c' := (abs_add_le n m).trans (by omega)
  refine ⟨n + m, ?_, by push_cast; rfl, hb⟩
  ext
  change rnd ((n : ℚ) + m) = _
  rw [← Int.cast_add]
  exact hr _ (hb.trans hc)

theorem Same.sub (hr : ExactInts rnd) {c c' : ℤ} {a a' : Fl rnd} {b b' : ℚ} (h : Same c a b) (h' : Same c' a' b')
    (hc : c + c' ≤ 2 ^ 53) : Same (c + c') (a - a') (b - b') := by
  obtain ⟨n, rfl, rfl, h3⟩ := h
  obtain ⟨m, rfl, rfl, h6⟩ := h'
  have hb : |n - m| ≤ c + c' := by
    rw [abs_le] at h3 h6 ⊢
    omega
  refine ⟨n - m, ?_, by push_cast; rfl, hb⟩
  ext
  change rnd ((n : ℚ) - m) = _
  rw [← Int.cast_sub]
  exact hr _ (hb.trans hc)

theorem Same.mul (hr : ExactInts rnd) {c c' : ℤ} {a a' : Fl rnd} {b b' : ℚ} (h : Same c a b) (h' : Same c' a' b')
    (hc : c * c' ≤ 2 ^ 53) : Same (c * c') (a * a') (b * b') := by
  have h0 := h.nonneg
  obtain ⟨n, rfl, rfl, h3⟩ := h
  obtain ⟨m, rfl, rfl, h6⟩ := h'
  have hb : |n * m| ≤ c * c' := by
    rw [abs_mul]
    exact mul_le_mul h3 h6 (abs_nonneg _) h0
  refine ⟨n * m, ?_, by push_cast; rfl, hb⟩
  ext
  change rnd ((n : ℚ) * m) = _
  rw [← Int.cast_mul]
  exact hr _ (hb.trans hc)

theorem Same.pow (hr : ExactInts rnd) {c : ℤ} {a : Fl rnd} {b : ℚ} (h : Same c a b) (k : ℕ)
    (hc : c ^ k ≤ 2 ^ 53) : Same (c ^ k) (a ^ k) (b ^ k) := by
  have h0 := h.nonneg
  obtain ⟨n, rfl, rfl, h3⟩ := h
  have hb : |n ^ k| ≤ c ^ k := by
    rw [abs_pow]
    exact pow_le_pow_left₀ (abs_nonneg _) h3 k
  refine ⟨n ^ k, ?_, by push_cast; rfl, hb⟩
  ext
  change rnd ((n : ℚ) ^ k) = _
  rw [← Int.cast_pow]
  exact hr _ (hb.trans hc)

theorem Same.zero_iff {c : ℤ} {a : Fl rnd} {b : ℚ} (h : Same c a b) : a = 0 ↔ b = 0 := by
  obtain ⟨n, rfl, rfl, -⟩ := h
  constructor
  · intro h
    exact congrArg Fl.val h
  · intro h
    ext
    exact h

theorem Same.eq_iff {c c' : ℤ} {a a' : Fl rnd} {b b' : ℚ} (h : Same c a b) (h' : Same c' a' b') :
    a = a' ↔ b = b' := by
  obtain ⟨n, rfl, rfl, -⟩ := h
  obtain ⟨m, rfl, rfl, -⟩ := h'
  constructor
  · intro h
    exact congrArg Fl.val h
  · intro h
    ext
    exact h

/-! ### outcomes -/

/-- The same outcome, with related values. -/
def Both {α β : Type} (P : α → β → Prop) : Outcome α → Outcome β → Prop
  | ok a, ok b => P a b
  | throws, throws => True
  | ub, ub => True
  | diverge, diverge => True
  | _, _ => False

theorem Both.bind {α β γ δ : Type} {P : α → β → Prop} {Q : γ → δ → Prop} {o : Outcome α} {o' : Outcome β}
    {f : α → Outcome γ} {f' : β → Outcome δ} (h : Both P o o') (hf : ∀ a b, P a b → Both Q (f a) (f' b)) :
    Both Q (o >>= f) (o' >>= f') := by
  cases o <;> cases o' <;> first | exact hf _ _ h | exact h | exact h.elim

theorem Both.pure {α β : Type} {P : α → β → Prop} {a : α} {b : β} (h : P a b) :
    Both P (Pure.pure a) (Pure.pure b) := h

theorem both_refl {α : Type} (o : Outcome α) : Both (fun a b => a = b) o o := by cases o <;> simp [Both]

theorem Both.mono {α β : Type} {P Q : α → β → Prop} {o : Outcome α} {o' : Outcome β} (h : Both P o o')
    (hPQ : ∀ a b, P a b → Q a b) : Both Q o o' := by
  cases o <;> cases o' <;> first | exact hPQ _ _ h | exact h

theorem both_ite {α β : Type} {P : α → β → Prop} {p q : Prop} [Decidable p] [Decidable q] {a b : Outcome α}
    {a' b' : Outcome β} (hpq : p ↔ q) (h : p → Both P a a') (h' : ¬ p → Both P b b') :
    Both P (if p then a else b) (if q then a' else b') := by
  by_cases hp : p
  · rw [if_pos hp, if_pos (hpq.1 hp)]; exact h hp
  · rw [if_neg hp, if_neg (fun hq => hp (hpq.2 hq))]; exact h' hp

/-- `let a ← if p then x else y; k a` -/
theorem both_branch {α β γ δ : Type} {P : α → β → Prop} {Q : γ → δ → Prop} {p q : Prop} [Decidable p] [Decidable q]
    {x y : Outcome α} {x' y' : Outcome β} {k : α → Outcome γ} {k' : β → Outcome δ} (hpq : p ↔ q)
    (h : p → Both P x x') (h' : ¬ p → Both P y y') (hk : ∀ a b, P a b → Both Q (k a) (k' b)) :
    Both Q (if p then x >>= k else y >>= k) (if q then x' >>= k' else y' >>= k') :=
  both_ite hpq (fun hp => Both.bind (h hp) hk) (fun hp => Both.bind (h' hp) hk)

/-- A loop whose body adds at most `m` in each iteration. -/
theorem both_forM {σ α β : Type} {P : ℤ → α → β → Prop} {m : ℤ} {body : α → σ → Outcome α}
    {body' : β → σ → Outcome β} (hb : ∀ c x a b, P c a b → c + m ≤ 2 ^ 53 → Both (P (c + m)) (body a x) (body' b x))
    (hm : 0 ≤ m) :
    ∀ (l : List σ) {c : ℤ} {a : α} {b : β}, P c a b → c + l.length * m ≤ 2 ^ 53 →
      Both (P (c + l.length * m)) (forM l a body) (forM l b body')
  | [], c, a, b, h, _ => by simpa [forM, Both] using h
  | x :: l, c, a, b, h, hc => by
    have hl : 0 ≤ (l.length : ℤ) * m := by positivity
    have e : c + ((x :: l).length : ℤ) * m = c + m + l.length * m := by
      rw [List.length_cons]; push_cast; ring
    rw [e] at hc ⊢
    exact Both.bind (hb c x a b h (by omega)) fun a' b' h' => both_forM hb hm l h' hc

/-! ### arrays -/

/-- The same shape, and the same integers, at most `c`. -/
def SameNd (c : ℤ) (a : Nd (Fl rnd)) (b : Nd ℚ) : Prop := a.shape = b.shape ∧ ∀ k, Same c (a.get k) (b.get k)

theorem SameNd.mono {c c' : ℤ} {a : Nd (Fl rnd)} {b : Nd ℚ} (h : SameNd c a b) (hc : c ≤ c') : SameNd c' a b :=
  ⟨h.1, fun k => (h.2 k).mono hc⟩

theorem SameNd.nonneg {c : ℤ} {a : Nd (Fl rnd)} {b : Nd ℚ} (h : SameNd c a b) : 0 ≤ c := (h.2 0).nonneg

theorem SameNd.at {c : ℤ} {a : Nd (Fl rnd)} {b : Nd ℚ} (h : SameNd c a b) (x : List Int) :
    Same c (a.at_ x) (b.at_ x) := by
  unfold Nd.at_
  rw [h.1]
  exact h.2 _

theorem SameNd.read {c : ℤ} {a : Nd (Fl rnd)} {b : Nd ℚ} (h : SameNd c a b) (x : List Int) :
    Both (Same c) (a.read x) (b.read x) := by
  unfold Nd.read Nd.valid Nd.size
  rw [h.1]
  exact both_ite Iff.rfl (fun _ => h.at x) (fun _ => trivial)

theorem SameNd.addAt (hr : ExactInts rnd) {c m : ℤ} {a : Nd (Fl rnd)} {b : Nd ℚ} (h : SameNd c a b) {v : Fl rnd}
    {w : ℚ} (hv : Same m v w) (hc : c + m ≤ 2 ^ 53) (x : List Int) :
    Both (SameNd (c + m)) (a.addAt x v) (b.addAt x w) := by
  have hm := hv.nonneg
  unfold Nd.addAt Nd.valid Nd.size
  rw [h.1]
  refine both_ite Iff.rfl (fun _ => ⟨rfl, fun k => ?_⟩) (fun _ => trivial)
  dsimp only
  split
  · exact (h.2 k).add hr hv hc
  · exact (h.2 k).mono (by omega)

theorem sameNd_map₂ {c c' c'' : ℤ} {a b : Nd (Fl rnd)} {a' b' : Nd ℚ} {φ : Fl rnd → Fl rnd → Fl rnd}
    {ψ : ℚ → ℚ → ℚ} (h : SameNd c a a') (h' : SameNd c' b b')
    (hφ : ∀ x x' y y', Same c x x' → Same c' y y' → Same c'' (φ x y) (ψ x' y')) :
    Both (SameNd c'') (Nd.map₂ φ a b) (Nd.map₂ ψ a' b') := by
  unfold Nd.map₂
  rw [h.1, h'.1]
  exact both_ite Iff.rfl (fun _ => ⟨rfl, fun k => hφ _ _ _ _ (h.2 k) (h'.2 k)⟩) (fun _ => trivial)

theorem SameNd.map {c c' : ℤ} {a : Nd (Fl rnd)} {a' : Nd ℚ} {φ : Fl rnd → Fl rnd} {ψ : ℚ → ℚ} (h : SameNd c a a')
    (hφ : ∀ x x', Same c x x' → Same c' (φ x) (ψ x')) : SameNd c' (a.map φ) (a'.map ψ) :=
  ⟨h.1, fun k => hφ _ _ (h.2 k)⟩

theorem SameNd.atleast3d {c : ℤ} {a : Nd (Fl rnd)} {b : Nd ℚ} (h : SameNd c a b) :
    SameNd c a.atleast3d b.atleast3d := ⟨congrArg shape3 h.1, h.2⟩

theorem SameNd.pad {c : ℤ} {a : Nd (Fl rnd)} {b : Nd ℚ} (h : SameNd c a b) (width : List (Nat × Nat))
    (mode : PadMode) : Both (SameNd c) (a.pad width mode 0) (b.pad width mode 0) := by
  unfold Nd.pad
  rw [h.1]
  refine both_ite Iff.rfl (fun _ => trivial) (fun _ => both_ite Iff.rfl (fun _ => trivial) (fun _ => ⟨rfl, fun k => ?_⟩))
  dsimp only [Nd.ofFn, Nd.extend]
  cases mode
  · dsimp only
    rw [h.1]
    split
    · exact h.at _
    · exact same_zero h.nonneg
  · dsimp only
    rw [h.1]
    exact h.at _

theorem SameNd.view {c : ℤ} {a : Nd (Fl rnd)} {b : Nd ℚ} (h : SameNd c a b) (ranges : List (Int × Int)) :
    Both (SameNd c) (a.view ranges) (b.view ranges) := by
  unfold Nd.view
  rw [h.1]
  exact both_ite Iff.rfl (fun _ => trivial)
    (fun _ => both_ite Iff.rfl (fun _ => trivial) (fun _ => ⟨rfl, fun k => h.at _⟩))

/-- Zeros and ones, also where the padding reads. -/
def Bits (m : Nd Int) : Prop := ∀ k, m.get k = 0 ∨ m.get k = 1

theorem Bits.pad {m : Nd Int} (h : Bits m) (width : List (Nat × Nat)) {v : Int} (hv : v = 0 ∨ v = 1)
    {M : Nd Int} (e : m.pad width .constant v = ok M) : Bits M := by
  unfold Nd.pad at e
  split at e
  · cases e
  · split at e
    · cases e
    · cases e
      intro k
      dsimp only [Nd.ofFn, Nd.extend]
      split
      · exact h _
      · exact hv

theorem sameNd_unmasked (hr : ExactInts rnd) {m : Nd Int} (h : Bits m) (pad : List (Nat × Nat)) (x : List Int) :
    Both (SameNd 1) (unmasked (K := Fl rnd) m pad x) (unmasked (K := ℚ) m pad x) := by
  unfold unmasked
  cases e : m.view (around pad x) with
  | ok v =>
    refine ⟨rfl, fun k => ?_⟩
    have hv : v.get k = 0 ∨ v.get k = 1 := by
      unfold Nd.view at e
      split at e
      · cases e
      · split at e
        · cases e
        · cases e
          exact h _
    have e0 : rnd 0 = 0 := by simpa using hr 0 (by norm_num)
    have e1 : rnd 1 = 1 := by simpa using hr 1 (by norm_num)
    have c0 : ((0 : Int) : Fl rnd) = ⟨0⟩ := by ext; change rnd ((0 : Int) : ℚ) = 0; simpa using e0
    have c1 : ((1 : Int) : Fl rnd) = ⟨1⟩ := by ext; change rnd ((1 : Int) : ℚ) = 1; simpa using e1
    rcases hv with hv | hv
    · refine ⟨1, ?_, ?_, by simp⟩
      · simp only [Nd.map, hv, c0]
        ext
        change rnd (1 - 0) = _
        simpa using e1
      · simp [Nd.map, hv]
    · refine ⟨0, ?_, ?_, by simp⟩
      · simp only [Nd.map, hv, c1]
        ext
        change rnd (1 - 1) = _
        simpa using e0
      · simp [Nd.map, hv]
  | throws => trivial
  | ub => trivial
  | diverge => trivial

/-! ### ensembles -/

/-- The same ensemble; the accumulators hold integers, at most `c`. -/
structure SameEns (c : ℤ) (E : Ensemble (Fl rnd)) (E' : Ensemble ℚ) : Prop where
  stat : E.stat = E'.stat
  periodic : E.periodic = E'.periodic
  variance : E.variance = E'.variance
  shapeOrig : E.shapeOrig = E'.shapeOrig
  shape : E.shape = E'.shape
  pad : E.pad = E'.pad
  first : SameNd c E.first E'.first
  second : SameNd c E.second E'.second
  norm : SameNd c E.norm E'.norm

theorem SameEns.mono {c c' : ℤ} {E : Ensemble (Fl rnd)} {E' : Ensemble ℚ} (h : SameEns c E E') (hc : c ≤ c') :
    SameEns c' E E' := { h with first := h.first.mono hc, second := h.second.mono hc, norm := h.norm.mono hc }

theorem SameEns.setStat {c : ℤ} {E : Ensemble (Fl rnd)} {E' : Ensemble ℚ} (h : SameEns c E E') (st : Stat) :
    SameEns c { E with stat := st } { E' with stat := st } := { h with stat := rfl }

theorem make_same (dbg : Bool) (roi : List Nat) (periodic variance : Bool) :
    Both (SameEns (rnd := rnd) 0) (make (Fl rnd) dbg roi periodic variance) (make ℚ dbg roi periodic variance) := by
  unfold make
  refine Both.bind (both_refl _) fun _ _ _ => ?_
  refine both_ite Iff.rfl (fun _ => trivial) (fun _ => Both.pure ?_)
  have h : ∀ s : List Nat, SameNd (rnd := rnd) 0 (Nd.fill s 0) (Nd.fill s 0) := fun s => ⟨rfl, fun _ => same_zero le_rfl⟩
  exact ⟨rfl, rfl, rfl, rfl, rfl, rfl, (h _).atleast3d, h _, h _⟩

/-! The accumulators in a loop: separate bounds, so that a body that touches each of them once adds `m`. -/

theorem addFirst_same (hr : ExactInts rnd) {c m : ℤ} {E : Ensemble (Fl rnd)} {E' : Ensemble ℚ} (h : SameEns c E E')
    {a : Nd (Fl rnd)} {b : Nd ℚ} (ha : SameNd m a b) (hc : c + m ≤ 2 ^ 53) :
    Both (fun A B => SameEns (c + m) A B ∧ SameNd c A.second B.second ∧ SameNd c A.norm B.norm)
      (addFirst E a) (addFirst E' b) := by
  unfold addFirst
  have hm := ha.nonneg
  refine Both.bind (sameNd_map₂ h.first ha fun _ _ _ _ h1 h2 => h1.add hr h2 hc) fun A B hAB => ?_
  exact ⟨{ h with first := hAB, second := h.second.mono (by omega), norm := h.norm.mono (by omega) }, h.second, h.norm⟩

theorem addSecond_same (hr : ExactInts rnd) {c m : ℤ} {E : Ensemble (Fl rnd)} {E' : Ensemble ℚ}
    (h : SameEns (c + m) E E') (h2 : SameNd c E.second E'.second) (h3 : SameNd c E.norm E'.norm)
    {a : Nd (Fl rnd)} {b : Nd ℚ} (ha : SameNd m a b) (hc : c + m ≤ 2 ^ 53) :
    Both (fun A B => SameEns (c + m) A B ∧ SameNd c A.norm B.norm) (addSecond E a) (addSecond E' b) := by
  unfold addSecond
  refine Both.bind (sameNd_map₂ h2 ha fun _ _ _ _ h1 h2 => h1.add hr h2 hc) fun A B hAB => ?_
  exact ⟨{ h with second := hAB }, h3⟩

theorem addNorm_same (hr : ExactInts rnd) {c m : ℤ} {E : Ensemble (Fl rnd)} {E' : Ensemble ℚ}
    (h : SameEns (c + m) E E') (h3 : SameNd c E.norm E'.norm)
    {a : Nd (Fl rnd)} {b : Nd ℚ} (ha : SameNd m a b) (hc : c + m ≤ 2 ^ 53) :
    Both (SameEns (c + m)) (addNorm E a) (addNorm E' b) := by
  unfold addNorm
  refine Both.bind (sameNd_map₂ h3 ha fun _ _ _ _ h1 h2 => h1.add hr h2 hc) fun A B hAB => ?_
  exact { h with norm := hAB }

/-! ### the bodies of the loops -/

section bodies

variable {A B m c : ℤ} {F G : Nd (Fl rnd)} {F' G' : Nd ℚ} {Fm Gm : Nd Int} {pad : List (Nat × Nat)}

theorem bodyS2_same (hr : ExactInts rnd) (hF : SameNd A F F') (hG : SameNd B G G') (hGm : Bits Gm)
    (hm : 1 ≤ m) (hAB : A * B ≤ m) (c : ℤ) (x : List Int) (E : Ensemble (Fl rnd)) (E' : Ensemble ℚ)
    (h : SameEns c E E') (hc : c + m ≤ 2 ^ 53) :
    Both (SameEns (c + m)) (bodyS2 pad F G Fm Gm E x) (bodyS2 pad F' G' Fm Gm E' x) := by
  have h0 := h.first.nonneg
  unfold bodyS2
  refine Both.bind (both_refl _) fun k k' hk => ?_
  subst hk
  refine both_ite Iff.rfl (fun _ => Both.pure (h.mono (by omega))) (fun _ => ?_)
  refine Both.bind (hG.view _) fun V V' hV => ?_
  refine Both.bind (sameNd_unmasked hr hGm _ _) fun W W' hW => ?_
  refine Both.bind (hF.read x) fun fx fx' hfx => ?_
  refine both_branch (P := fun A B => SameEns (c + m) A B ∧ SameNd c A.second B.second ∧ SameNd c A.norm B.norm)
    (not_congr hfx.zero_iff) (fun _ => ?_) (fun _ => Both.pure ⟨h.mono (by omega), h.second, h.norm⟩)
    fun E1 E1' h1 => ?_
  · refine Both.bind (P := SameNd m) (sameNd_map₂ hV hW fun g g' w w' hg hw => ?_) fun C C' hC =>
      addFirst_same hr h hC hc
    have h1 := hfx.mul hr hg (hAB.trans (by omega))
    have h2 := h1.mul hr hw (by rw [mul_one]; exact hAB.trans (by omega))
    exact h2.mono (by rw [mul_one]; exact hAB)
  · exact addNorm_same hr h1.1 h1.2.2 (hW.mono hm) hc

theorem bodyC2_same (hr : ExactInts rnd) (hF : SameNd A F F') (hG : SameNd B G G') (hGm : Bits Gm)
    (hm : 1 ≤ m) (c : ℤ) (x : List Int) (E : Ensemble (Fl rnd)) (E' : Ensemble ℚ)
    (h : SameEns c E E') (hc : c + m ≤ 2 ^ 53) :
    Both (SameEns (c + m)) (bodyC2 pad F G Fm Gm E x) (bodyC2 pad F' G' Fm Gm E' x) := by
  have h0 := h.first.nonneg
  unfold bodyC2
  refine Both.bind (both_refl _) fun k k' hk => ?_
  subst hk
  refine both_ite Iff.rfl (fun _ => Both.pure (h.mono (by omega))) (fun _ => ?_)
  refine Both.bind (hG.view _) fun V V' hV => ?_
  refine Both.bind (sameNd_unmasked hr hGm _ _) fun W W' hW => ?_
  refine Both.bind (hF.read x) fun fx fx' hfx => ?_
  refine both_branch (P := fun A B => SameEns (c + m) A B ∧ SameNd c A.second B.second ∧ SameNd c A.norm B.norm)
    (not_congr hfx.zero_iff) (fun _ => ?_) (fun _ => Both.pure ⟨h.mono (by omega), h.second, h.norm⟩)
    fun E1 E1' h1 => ?_
  · refine Both.bind (P := SameNd m) (sameNd_map₂ hV hW fun g g' w w' hg hw => ?_) fun C C' hC =>
      addFirst_same hr h hC hc
    have e := hfx.eq_iff hg
    by_cases hq : fx = g
    · rw [if_pos hq, if_pos (e.1 hq)]
      exact hw.mono hm
    · rw [if_neg hq, if_neg (fun h => hq (e.2 h))]
      exact same_zero (by omega)
  · exact addNorm_same hr h1.1 h1.2.2 (hW.mono hm) hc

theorem bodyW2_same (hr : ExactInts rnd) (hF : SameNd A F F') (hG : SameNd B G G') (hGm : Bits Gm)
    (hA : A ≤ m) (hAB : A * B ≤ m) (c : ℤ) (x : List Int) (E : Ensemble (Fl rnd)) (E' : Ensemble ℚ)
    (h : SameEns c E E') (hc : c + m ≤ 2 ^ 53) :
    Both (SameEns (c + m)) (bodyW2 pad F G Gm E x) (bodyW2 pad F' G' Gm E' x) := by
  have h0 := h.first.nonneg
  have hA0 := hF.nonneg
  unfold bodyW2
  refine Both.bind (hG.view _) fun V V' hV => ?_
  refine Both.bind (sameNd_unmasked hr hGm _ _) fun W W' hW => ?_
  refine Both.bind (hF.read x) fun fx fx' hfx => ?_
  refine both_branch (P := fun A B => SameEns (c + m) A B ∧ SameNd c A.second B.second ∧ SameNd c A.norm B.norm)
    (not_congr hfx.zero_iff) (fun _ => ?_) (fun _ => Both.pure ⟨h.mono (by omega), h.second, h.norm⟩)
    fun E1 E1' h1 => ?_
  · refine Both.bind (P := SameNd m) (sameNd_map₂ hV hW fun g g' w w' hg hw => ?_) fun C C' hC =>
      addFirst_same hr h hC hc
    have h1 := hfx.mul hr hg (hAB.trans (by omega))
    have h2 := h1.mul hr hw (by rw [mul_one]; exact hAB.trans (by omega))
    exact h2.mono (by rw [mul_one]; exact hAB)
  · refine addNorm_same hr h1.1 h1.2.2 (hW.map (c' := m) fun w w' hw => ?_) hc
    exact (hfx.mul hr hw (by omega)).mono (by omega)

theorem bodyHH_same (hr : ExactInts rnd) (hF : SameNd A F F') (hFm : Bits Fm)
    (hm : 1 ≤ m) (hA : (2 * A) ^ 4 ≤ m) (c : ℤ) (x : List Int) (E : Ensemble (Fl rnd)) (E' : Ensemble ℚ)
    (h : SameEns c E E') (hc : c + m ≤ 2 ^ 53) :
    Both (SameEns (c + m)) (bodyHH pad F Fm E x) (bodyHH pad F' Fm E' x) := by
  have h0 := h.first.nonneg
  have hA0 := hF.nonneg
  have hle : ∀ a : ℤ, 0 ≤ a → a ≤ a ^ 2 := by
    intro a ha
    rcases ha.eq_or_lt with rfl | h1
    · norm_num
    · nlinarith
  have hA2 : (2 * A) ^ 2 ≤ (2 * A) ^ 4 := by
    have := hle ((2 * A) ^ 2) (by positivity)
    calc _ ≤ ((2 * A) ^ 2) ^ 2 := this
      _ = _ := by ring
  have hA1 : 2 * A ≤ (2 * A) ^ 2 := hle _ (by omega)
  unfold bodyHH
  refine Both.bind (both_refl _) fun k k' hk => ?_
  subst hk
  refine both_ite Iff.rfl (fun _ => Both.pure (h.mono (by omega))) (fun _ => ?_)
  refine Both.bind (hF.view _) fun V V' hV => ?_
  refine Both.bind (sameNd_unmasked hr hFm _ _) fun W W' hW => ?_
  refine Both.bind (hF.read x) fun fx fx' hfx => ?_
  have hsub : ∀ g g', Same A g g' → Same (2 * A) (g - fx) (g' - fx') := by
    intro g g' hg
    have := hg.sub hr hfx (by omega)
    rwa [← two_mul] at this
  refine Both.bind (P := SameNd m) (sameNd_map₂ hV hW fun g g' w w' hg hw => ?_) fun C C' hC => ?_
  · have h1 := (hsub g g' hg).pow hr 2 (by omega)
    have h2 := h1.mul hr hw (by rw [mul_one]; omega)
    exact h2.mono (by rw [mul_one]; omega)
  refine Both.bind (addFirst_same hr h hC hc) fun E1 E1' h1 => ?_
  rw [h1.1.variance]
  refine both_branch (P := fun A B => SameEns (c + m) A B ∧ SameNd c A.norm B.norm) Iff.rfl (fun _ => ?_)
    (fun _ => Both.pure ⟨h1.1, h1.2.2⟩) fun E2 E2' h2 => ?_
  · refine Both.bind (P := SameNd m) (sameNd_map₂ hV hW fun g g' w w' hg hw => ?_) fun D D' hD =>
      addSecond_same hr h1.1 h1.2.1 h1.2.2 hD hc
    have h1 := (hsub g g' hg).pow hr 4 (by omega)
    have h2 := h1.mul hr hw (by rw [mul_one]; omega)
    exact h2.mono (by rw [mul_one]; omega)
  · exact addNorm_same hr h2.1 h2.2 (hW.mono hm) hc

end bodies

end Verif.Ens

namespace Verif.Ens

open Verif Outcome Nd

variable {rnd : ℚ → ℚ}

/-! ### the calls -/

theorem pixelLoop_length : ∀ (s : List Nat) (w : List (Nat × Nat)), w.length = s.length →
    (pixelLoop (List.zipWith (fun n (p : Nat × Nat) => p.1 + n + p.2) s w) w).length = s.prod
  | [], [], _ => by simp [pixelLoop, Nd.loops]
  | n :: s, p :: w, h => by
    have ih := pixelLoop_length s w (by simpa using h)
    unfold pixelLoop at ih ⊢
    simp only [List.zipWith_cons_cons, Nd.loops, List.length_flatMap, List.length_map, ih, List.prod_cons]
    simp

theorem pad_shape {α : Type} {a A : Nd α} {w : List (Nat × Nat)} {mode : PadMode} {v : α}
    (h : a.pad w mode v = ok A) : (pixelLoop A.shape w).length = a.shape.prod := by
  unfold Nd.pad at h
  split at h
  · cases h
  · rename_i hl
    split at h
    · cases h
    · cases h
      exact pixelLoop_length _ _ (not_not.1 hl)

theorem shape3_prod' (s : List Nat) : (shape3 s).prod = s.prod := by
  unfold shape3
  split <;> simp

section calls

variable {A B m c : ℤ} {f g : Nd (Fl rnd)} {f' g' : Nd ℚ} {fmask gmask : Nd Int} {E : Ensemble (Fl rnd)}
  {E' : Ensemble ℚ}

theorem pad_both {α : Type} {m : Nd α} {w : List (Nat × Nat)} {mode : PadMode} {v : α} :
    Both (fun M M' => M = M' ∧ m.pad w mode v = ok M) (m.pad w mode v) (m.pad w mode v) := by
  cases h : m.pad w mode v <;> simp [Both]

theorem pad_sameNd (hf : SameNd A f f') (w : List (Nat × Nat)) (mode : PadMode) :
    Both (fun F F' => SameNd A F F' ∧ (pixelLoop F'.shape w).length = f'.shape.prod)
      (f.atleast3d.pad w mode 0) (f'.atleast3d.pad w mode 0) := by
  have h := hf.atleast3d.pad w mode
  cases e : f'.atleast3d.pad w mode 0 with
  | ok F' =>
    rw [e] at h
    cases e' : f.atleast3d.pad w mode 0 with
    | ok F =>
      rw [e'] at h
      exact ⟨h, (pad_shape e).trans (shape3_prod' _)⟩
    | _ => rw [e'] at h; exact h.elim
  | _ =>
    rw [e] at h
    cases e' : f.atleast3d.pad w mode 0 <;> rw [e'] at h <;> first | exact h.elim | trivial

theorem maskValue_bit (periodic : Bool) : maskValue periodic = 0 ∨ maskValue periodic = 1 := by
  cases periodic <;> simp [maskValue]

theorem S2_same (hr : ExactInts rnd) (dbg : Bool) (h : SameEns c E E') (hf : SameNd A f f') (hg : SameNd B g g')
    (hgm : Bits gmask) (hm : 1 ≤ m) (hAB : A * B ≤ m) (hc : c + f'.shape.prod * m ≤ 2 ^ 53) :
    Both (SameEns (c + f'.shape.prod * m)) (S2 dbg E f g fmask gmask) (S2 dbg E' f' g' fmask gmask) := by
  unfold S2
  rw [hf.1, hg.1, h.shapeOrig, h.stat]
  iterate 7 refine Both.bind (both_refl _) fun _ _ _ => ?_
  dsimp only
  rw [h.pad, h.periodic]
  refine Both.bind (pad_sameNd hf _ _) fun F F' hF => ?_
  refine Both.bind (pad_sameNd hg _ _) fun G G' hG => ?_
  refine Both.bind pad_both fun M M' hM => ?_
  refine Both.bind pad_both fun W W' hW => ?_
  obtain ⟨rfl, -⟩ := hM
  obtain ⟨rfl, eW⟩ := hW
  have hW : Bits W := Bits.pad (m := gmask.atleast3d) hgm _ (maskValue_bit _) eW
  rw [hF.1.1, ← hF.2]
  rw [← hF.2] at hc
  exact both_forM (fun c x E E' => bodyS2_same hr hF.1 hG.1 hW hm hAB c x E E') (by omega) _ ⟨rfl, rfl, h.variance, rfl, h.shape, rfl, h.first, h.second, h.norm⟩ hc

theorem C2_same (hr : ExactInts rnd) (dbg : Bool) (h : SameEns c E E') (hf : SameNd A f f') (hg : SameNd B g g')
    (hgm : Bits gmask) (hc : c + f'.shape.prod * 1 ≤ 2 ^ 53) :
    Both (SameEns (c + f'.shape.prod * 1)) (C2 dbg E f g fmask gmask) (C2 dbg E' f' g' fmask gmask) := by
  unfold C2
  rw [hf.1, hg.1, h.shapeOrig, h.stat]
  iterate 7 refine Both.bind (both_refl _) fun _ _ _ => ?_
  dsimp only
  rw [h.pad, h.periodic]
  refine Both.bind (pad_sameNd hf _ _) fun F F' hF => ?_
  refine Both.bind (pad_sameNd hg _ _) fun G G' hG => ?_
  refine Both.bind pad_both fun M M' hM => ?_
  refine Both.bind pad_both fun W W' hW => ?_
  obtain ⟨rfl, -⟩ := hM
  obtain ⟨rfl, eW⟩ := hW
  have hW : Bits W := Bits.pad (m := gmask.atleast3d) hgm _ (maskValue_bit _) eW
  rw [hF.1.1, ← hF.2]
  rw [← hF.2] at hc
  exact both_forM (fun c x E E' => bodyC2_same hr hF.1 hG.1 hW le_rfl c x E E') (by omega) _ ⟨rfl, rfl, h.variance, rfl, h.shape, rfl, h.first, h.second, h.norm⟩ hc

theorem W2_same (hr : ExactInts rnd) (dbg : Bool) (h : SameEns c E E') (hf : SameNd A f f') (hg : SameNd B g g')
    (hgm : Bits gmask) (hA : A ≤ m) (hAB : A * B ≤ m) (hc : c + f'.shape.prod * m ≤ 2 ^ 53) :
    Both (SameEns (c + f'.shape.prod * m)) (W2 dbg E f g gmask) (W2 dbg E' f' g' gmask) := by
  have hA0 := hf.nonneg
  unfold W2
  rw [hf.1, hg.1, h.shapeOrig, h.stat]
  iterate 5 refine Both.bind (both_refl _) fun _ _ _ => ?_
  dsimp only
  rw [h.pad, h.periodic]
  refine Both.bind (pad_sameNd hf _ _) fun F F' hF => ?_
  refine Both.bind (pad_sameNd hg _ _) fun G G' hG => ?_
  refine Both.bind pad_both fun W W' hW => ?_
  obtain ⟨rfl, eW⟩ := hW
  have hW : Bits W := Bits.pad (m := gmask.atleast3d) hgm _ (maskValue_bit _) eW
  rw [hF.1.1, ← hF.2]
  rw [← hF.2] at hc
  exact both_forM (fun c x E E' => bodyW2_same hr hF.1 hG.1 hW hA hAB c x E E') (by omega) _ ⟨rfl, rfl, h.variance, rfl, h.shape, rfl, h.first, h.second, h.norm⟩ hc

theorem HH_same (hr : ExactInts rnd) (dbg : Bool) (h : SameEns c E E') (hf : SameNd A f f')
    (hfm : Bits fmask) (hm : 1 ≤ m) (hA : (2 * A) ^ 4 ≤ m) (hc : c + f'.shape.prod * m ≤ 2 ^ 53) :
    Both (SameEns (c + f'.shape.prod * m)) (heightheight dbg E f fmask) (heightheight dbg E' f' fmask) := by
  unfold heightheight
  rw [hf.1, h.shapeOrig, h.stat]
  iterate 4 refine Both.bind (both_refl _) fun _ _ _ => ?_
  dsimp only
  rw [h.pad, h.periodic]
  refine Both.bind (pad_sameNd hf _ _) fun F F' hF => ?_
  refine Both.bind pad_both fun W W' hW => ?_
  obtain ⟨rfl, eW⟩ := hW
  have hW : Bits W := Bits.pad (m := fmask.atleast3d) hfm _ (maskValue_bit _) eW
  rw [hF.1.1, ← hF.2]
  rw [← hF.2] at hc
  exact both_forM (fun c x E E' => bodyHH_same hr hF.1 hW hm hA c x E E') (by omega) _ ⟨rfl, rfl, h.variance, rfl, h.shape, rfl, h.first, h.second, h.norm⟩ hc

/-- One rounding, of the quotient. -/
theorem result_same (h : SameEns c E E') (pow05 : Fl rnd → Fl rnd) :
    Both (fun r r' => r.shape = r'.shape ∧ ∀ k, r.get k =
        if E'.stat = .heightheight then pow05 ⟨rnd (r'.get k)⟩ else ⟨rnd (r'.get k)⟩)
      (result pow05 E) (result id E') := by
  unfold result Nd.map₂
  rw [h.first.1, h.norm.1]
  have key : ∀ k, E.first.get k / norm1 (E.norm.get k) = ⟨rnd (E'.first.get k / norm1 (E'.norm.get k))⟩ := by
    intro k
    obtain ⟨n, e1, e2, -⟩ := h.first.2 k
    obtain ⟨d, e3, e4, -⟩ := h.norm.2 k
    rw [e1, e2, e3, e4]
    ext
    have : (norm1 (⟨d⟩ : Fl rnd)).val = norm1 (d : ℚ) := by
      unfold norm1
      have : (⟨d⟩ : Fl rnd) ≤ 0 ↔ (d : ℚ) ≤ 0 := Iff.rfl
      by_cases hd : (d : ℚ) ≤ 0
      · rw [if_pos hd, if_pos (this.2 hd)]; rfl
      · rw [if_neg hd, if_neg (fun h => hd (this.1 h))]
    change rnd ((n : ℚ) / (norm1 (⟨d⟩ : Fl rnd)).val) = _
    rw [this]
  by_cases hs : E'.first.shape = E'.norm.shape
  · rw [if_pos hs, if_pos hs]
    simp only [ok_bind, pure_eq]
    refine ⟨h.shapeOrig, fun k => ?_⟩
    rw [h.stat]
    split <;> simp [Nd.reshape, Nd.map, key]
  · rw [if_neg hs, if_neg hs]
    trivial

end calls

end Verif.Ens
