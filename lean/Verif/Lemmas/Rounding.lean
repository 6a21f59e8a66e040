import Verif.Lemmas.FloatSim
import Verif.Lemmas.FloatWalk

/-!
# Error bounds of `Ensemble` in rounded arithmetic

Three runs side by side: in rounded arithmetic, in exact arithmetic, and in exact arithmetic with the absolute values of
the images. The last one is the scale of the error of the first.
-/

set_option linter.unusedSectionVars false

namespace Verif.Ens

open Verif Outcome Nd

variable {rnd : ℚ → ℚ} {u : ℚ}

/-- The relative error of a rounding is at most `u`. -/
def RelError (rnd : ℚ → ℚ) (u : ℚ) : Prop := ∀ x, |rnd x - x| ≤ u * |x|

/-- `a` is `b` after at most `n` roundings, on the scale `s`. -/
def Near (u : ℚ) (n : ℕ) (a : Fl rnd) (b s : ℚ) : Prop := |b| ≤ s ∧ |a.val - b| ≤ ((1 + u) ^ n - 1) * s

/-- A number of an image. -/
def Exact (a : Fl rnd) (b s : ℚ) : Prop := a.val = b ∧ s = |b|

/-- A number of an image, on its own scale. -/
def Equal (a : Fl rnd) (b s : ℚ) : Prop := a.val = b ∧ s = b

/-- A count, at most `c`. -/
def Count (c : ℤ) (a : Fl rnd) (b s : ℚ) : Prop := Same c a b ∧ s = b

/-- A weight: not negative, so that it is its own scale. -/
def Weight (a : Fl rnd) (b s : ℚ) : Prop := Exact a b s ∧ s = b

/-- A sum of weights. -/
def Weights (u : ℚ) (n : ℕ) (a : Fl rnd) (b s : ℚ) : Prop := Near u n a b s ∧ s = b

/-- One or zero. -/
def Bit (a : Fl rnd) (b s : ℚ) : Prop := a.val = b ∧ s = b ∧ (b = 0 ∨ b = 1)

theorem gamma_nonneg (hu : 0 ≤ u) (n : ℕ) : 0 ≤ (1 + u) ^ n - 1 := by
  have := one_le_pow₀ (n := n) (show 1 ≤ 1 + u by linarith)
  linarith

theorem gamma_mono (hu : 0 ≤ u) {n m : ℕ} (h : n ≤ m) : (1 + u) ^ n - 1 ≤ (1 + u) ^ m - 1 := by
  have := pow_le_pow_right₀ (show 1 ≤ 1 + u by linarith) h
  linarith

theorem Near.mono (hu : 0 ≤ u) {n m : ℕ} {a : Fl rnd} {b s : ℚ} (h : Near u n a b s) (hn : n ≤ m) :
    Near u m a b s :=
  ⟨h.1, h.2.trans (mul_le_mul_of_nonneg_right (gamma_mono hu hn) ((abs_nonneg _).trans h.1))⟩

theorem near_zero (n : ℕ) : Near (rnd := rnd) u n 0 0 0 := by
  refine ⟨by simp, ?_⟩
  change |(0 : ℚ) - 0| ≤ _
  simp

theorem Exact.near (hu : 0 ≤ u) {a : Fl rnd} {b s : ℚ} (h : Exact a b s) (n : ℕ) : Near u n a b s := by
  obtain ⟨h1, rfl⟩ := h
  refine ⟨le_rfl, ?_⟩
  rw [h1, sub_self, abs_zero]
  exact mul_nonneg (gamma_nonneg hu n) (abs_nonneg _)

theorem Bit.near (hu : 0 ≤ u) {a : Fl rnd} {b s : ℚ} (h : Bit a b s) (n : ℕ) : Near u n a b s := by
  obtain ⟨h1, rfl, h3⟩ := h
  refine Exact.near hu ⟨h1, ?_⟩ n
  rcases h3 with rfl | rfl <;> simp

theorem Bit.count {a : Fl rnd} {b s : ℚ} (h : Bit a b s) : Count 1 a b s := by
  obtain ⟨h1, rfl, h3⟩ := h
  refine ⟨?_, rfl⟩
  rcases h3 with rfl | rfl
  · exact ⟨0, by ext; simpa using h1, by simp, by simp⟩
  · exact ⟨1, by ext; simpa using h1, by simp, by simp⟩

/-- One more rounding. -/
theorem near_round (hu : 0 ≤ u) (hr : RelError rnd u) {n : ℕ} {x b s : ℚ} (h1 : |b| ≤ s)
    (h2 : |x - b| ≤ ((1 + u) ^ n - 1) * s) : Near (rnd := rnd) u (n + 1) ⟨rnd x⟩ b s := by
  refine ⟨h1, ?_⟩
  have hx : |x| ≤ (1 + u) ^ n * s := by
    have : |x| ≤ |x - b| + |b| := by
      have := abs_add_le (x - b) b
      rwa [sub_add_cancel] at this
    linarith
  have : |rnd x - b| ≤ |rnd x - x| + |x - b| := by
    have := abs_add_le (rnd x - x) (x - b)
    rwa [sub_add_sub_cancel] at this
  have h3 := hr x
  have h4 : u * |x| ≤ u * ((1 + u) ^ n * s) := mul_le_mul_of_nonneg_left hx hu
  have e : ((1 + u) ^ (n + 1) - 1) * s = u * ((1 + u) ^ n * s) + ((1 + u) ^ n - 1) * s := by ring
  change |rnd x - b| ≤ _
  rw [e]
  linarith

theorem Near.add (hu : 0 ≤ u) (hr : RelError rnd u) {n m : ℕ} {a a' : Fl rnd} {b b' s s' : ℚ} (h : Near u n a b s)
    (h' : Near u m a' b' s') (hm : m ≤ n) : Near u (n + 1) (a + a') (b + b') (s + s') := by
  have h' := h'.mono hu hm
  refine near_round hu hr ((abs_add_le _ _).trans (add_le_add h.1 h'.1)) ?_
  have : |a.val + a'.val - (b + b')| ≤ |a.val - b| + |a'.val - b'| := by
    have := abs_add_le (a.val - b) (a'.val - b')
    rwa [show a.val - b + (a'.val - b') = a.val + a'.val - (b + b') by ring] at this
  have e1 := h.2
  have e2 := h'.2
  rw [mul_add]
  linarith

theorem Near.mul (hu : 0 ≤ u) (hr : RelError rnd u) {n m : ℕ} {a a' : Fl rnd} {b b' s s' : ℚ} (h : Near u n a b s)
    (h' : Near u m a' b' s') : Near u (n + m + 1) (a * a') (b * b') (s * s') := by
  have hs := (abs_nonneg _).trans h.1
  have hs' := (abs_nonneg _).trans h'.1
  refine near_round hu hr ?_ ?_
  · rw [abs_mul]
    exact mul_le_mul h.1 h'.1 (abs_nonneg _) hs
  · have ha' : |a'.val| ≤ (1 + u) ^ m * s' := by
      have : |a'.val| ≤ |a'.val - b'| + |b'| := by
        have := abs_add_le (a'.val - b') b'
        rwa [sub_add_cancel] at this
      have e1 := h'.1
      have e2 := h'.2
      linarith
    have e : a.val * a'.val - b * b' = (a.val - b) * a'.val + b * (a'.val - b') := by ring
    rw [e]
    refine (abs_add_le _ _).trans ?_
    rw [abs_mul, abs_mul]
    have k1 := mul_le_mul h.2 ha' (abs_nonneg _) (mul_nonneg (gamma_nonneg hu n) hs)
    have k2 := mul_le_mul h.1 h'.2 (abs_nonneg _) hs
    have : ((1 + u) ^ (n + m) - 1) * (s * s') =
        ((1 + u) ^ n - 1) * s * ((1 + u) ^ m * s') + s * (((1 + u) ^ m - 1) * s') := by rw [pow_add]; ring
    rw [this]
    linarith

theorem near_val_pow (hu : 0 ≤ u) {n : ℕ} {a b s : ℚ} (h1 : |b| ≤ s) (h2 : |a - b| ≤ ((1 + u) ^ n - 1) * s) (k : ℕ) :
    |b ^ k| ≤ s ^ k ∧ |a ^ k - b ^ k| ≤ ((1 + u) ^ (n * k) - 1) * s ^ k := by
  have hs := (abs_nonneg _).trans h1
  induction k with
  | zero => simp
  | succ k ih =>
    obtain ⟨i1, i2⟩ := ih
    have hb : |b ^ (k + 1)| ≤ s ^ (k + 1) := by
      rw [pow_succ, abs_mul, pow_succ]
      exact mul_le_mul i1 h1 (abs_nonneg _) (by positivity)
    refine ⟨hb, ?_⟩
    have ha : |a| ≤ (1 + u) ^ n * s := by
      have : |a| ≤ |a - b| + |b| := by
        have := abs_add_le (a - b) b
        rwa [sub_add_cancel] at this
      linarith
    have e : a ^ (k + 1) - b ^ (k + 1) = (a ^ k - b ^ k) * a + b ^ k * (a - b) := by ring
    rw [e]
    refine (abs_add_le _ _).trans ?_
    rw [abs_mul, abs_mul]
    have k1 := mul_le_mul i2 ha (abs_nonneg _) (mul_nonneg (gamma_nonneg hu _) (by positivity))
    have k2 := mul_le_mul i1 h2 (abs_nonneg _) (by positivity)
    have : ((1 + u) ^ (n * (k + 1)) - 1) * s ^ (k + 1) =
        ((1 + u) ^ (n * k) - 1) * s ^ k * ((1 + u) ^ n * s) + s ^ k * (((1 + u) ^ n - 1) * s) := by
      rw [mul_add, mul_one, pow_add]; ring
    rw [this]
    linarith

theorem Near.pow (hu : 0 ≤ u) (hr : RelError rnd u) {n : ℕ} {a : Fl rnd} {b s : ℚ} (h : Near u n a b s) (k : ℕ) :
    Near u (n * k + 1) (a ^ k) (b ^ k) (s ^ k) :=
  near_round hu hr (near_val_pow hu h.1 h.2 k).1 (near_val_pow hu h.1 h.2 k).2

/-! ### outcomes -/

/-- The same outcome of three runs, with related values. -/
def Three {α β γ : Type} (P : α → β → γ → Prop) : Outcome α → Outcome β → Outcome γ → Prop
  | ok a, ok b, ok c => P a b c
  | throws, throws, throws => True
  | ub, ub, ub => True
  | diverge, diverge, diverge => True
  | _, _, _ => False

theorem Three.bind {α β γ α' β' γ' : Type} {P : α → β → γ → Prop} {Q : α' → β' → γ' → Prop} {o : Outcome α}
    {o' : Outcome β} {o'' : Outcome γ} {f : α → Outcome α'} {f' : β → Outcome β'} {f'' : γ → Outcome γ'}
    (h : Three P o o' o'') (hf : ∀ a b c, P a b c → Three Q (f a) (f' b) (f'' c)) :
    Three Q (o >>= f) (o' >>= f') (o'' >>= f'') := by
  cases o <;> cases o' <;> cases o'' <;> first | exact hf _ _ _ h | exact h | exact h.elim

theorem Three.pure {α β γ : Type} {P : α → β → γ → Prop} {a : α} {b : β} {c : γ} (h : P a b c) :
    Three P (Pure.pure a) (Pure.pure b) (Pure.pure c) := h

theorem three_refl {α : Type} (o : Outcome α) : Three (fun a b c => a = b ∧ c = b ∧ o = ok b) o o o := by
  cases o <;> simp [Three]

theorem Three.mono {α β γ : Type} {P Q : α → β → γ → Prop} {o : Outcome α} {o' : Outcome β} {o'' : Outcome γ}
    (h : Three P o o' o'') (hPQ : ∀ a b c, P a b c → Q a b c) : Three Q o o' o'' := by
  cases o <;> cases o' <;> cases o'' <;> first | exact hPQ _ _ _ h | exact h

theorem three_ite {α β γ : Type} {P : α → β → γ → Prop} {p q r : Prop} [Decidable p] [Decidable q] [Decidable r]
    {a b : Outcome α} {a' b' : Outcome β} {a'' b'' : Outcome γ} (hpq : p ↔ q) (hr : r ↔ q) (h : q → Three P a a' a'')
    (h' : ¬ q → Three P b b' b'') :
    Three P (if p then a else b) (if q then a' else b') (if r then a'' else b'') := by
  by_cases hq : q
  · rw [if_pos (hpq.2 hq), if_pos hq, if_pos (hr.2 hq)]; exact h hq
  · rw [if_neg (fun hp => hq (hpq.1 hp)), if_neg hq, if_neg (fun hp => hq (hr.1 hp))]; exact h' hq

theorem three_branch {α β γ α' β' γ' : Type} {P : α → β → γ → Prop} {Q : α' → β' → γ' → Prop} {p q r : Prop}
    [Decidable p] [Decidable q] [Decidable r] {x y : Outcome α} {x' y' : Outcome β} {x'' y'' : Outcome γ}
    {k : α → Outcome α'} {k' : β → Outcome β'} {k'' : γ → Outcome γ'} (hpq : p ↔ q) (hr : r ↔ q)
    (h : q → Three P x x' x'') (h' : ¬ q → Three P y y' y'')
    (hk : ∀ a b c, P a b c → Three Q (k a) (k' b) (k'' c)) :
    Three Q (if p then x >>= k else y >>= k) (if q then x' >>= k' else y' >>= k')
      (if r then x'' >>= k'' else y'' >>= k'') :=
  three_ite hpq hr (fun hp => Three.bind (h hp) hk) (fun hp => Three.bind (h' hp) hk)

/-- A loop whose body adds one rounding in each iteration. -/
theorem three_forM {σ α β γ : Type} {P : ℕ → α → β → γ → Prop} {top : ℕ} {body : α → σ → Outcome α}
    {body' : β → σ → Outcome β} {body'' : γ → σ → Outcome γ}
    (hb : ∀ n x a b c, P n a b c → n + 1 ≤ top → Three (P (n + 1)) (body a x) (body' b x) (body'' c x)) :
    ∀ (l : List σ) {n : ℕ} {a : α} {b : β} {c : γ}, P n a b c → n + l.length ≤ top →
      Three (P (n + l.length)) (forM l a body) (forM l b body') (forM l c body'')
  | [], n, a, b, c, h, _ => by simpa [forM, Three] using h
  | x :: l, n, a, b, c, h, hn => by
    have e : n + (x :: l).length = n + 1 + l.length := by rw [List.length_cons]; omega
    rw [e] at hn ⊢
    exact Three.bind (hb n x a b c h (by omega)) fun a' b' c' h' => three_forM hb l h' hn

/-! ### arrays -/

/-- The same shape, and related elements. -/
def Nd3 {α β γ : Type} (R : α → β → γ → Prop) (a : Nd α) (b : Nd β) (c : Nd γ) : Prop :=
  a.shape = b.shape ∧ c.shape = b.shape ∧ ∀ k, R (a.get k) (b.get k) (c.get k)

section arrays

variable {α β γ α' β' γ' α'' β'' γ'' : Type} {R : α → β → γ → Prop} {R' : α' → β' → γ' → Prop}
  {R'' : α'' → β'' → γ'' → Prop}

theorem Nd3.mono {R' : α → β → γ → Prop} {a : Nd α} {b : Nd β} {c : Nd γ} (h : Nd3 R a b c)
    (hR : ∀ x y z, R x y z → R' x y z) : Nd3 R' a b c := ⟨h.1, h.2.1, fun k => hR _ _ _ (h.2.2 k)⟩

theorem Nd3.at {a : Nd α} {b : Nd β} {c : Nd γ} (h : Nd3 R a b c) (x : List Int) :
    R (a.at_ x) (b.at_ x) (c.at_ x) := by
  unfold Nd.at_
  rw [h.1, h.2.1]
  exact h.2.2 _

theorem Nd3.read {a : Nd α} {b : Nd β} {c : Nd γ} (h : Nd3 R a b c) (x : List Int) :
    Three R (a.read x) (b.read x) (c.read x) := by
  unfold Nd.read Nd.valid Nd.size
  rw [h.1, h.2.1]
  exact three_ite Iff.rfl Iff.rfl (fun _ => h.at x) (fun _ => trivial)

theorem nd3_map₂ {a : Nd α} {b : Nd β} {c : Nd γ} {a' : Nd α'} {b' : Nd β'} {c' : Nd γ'} {φ : α → α' → α''}
    {ψ : β → β' → β''} {χ : γ → γ' → γ''} (h : Nd3 R a b c) (h' : Nd3 R' a' b' c')
    (hφ : ∀ x y z x' y' z', R x y z → R' x' y' z' → R'' (φ x x') (ψ y y') (χ z z')) :
    Three (Nd3 R'') (Nd.map₂ φ a a') (Nd.map₂ ψ b b') (Nd.map₂ χ c c') := by
  unfold Nd.map₂
  rw [h.1, h'.1, h.2.1, h'.2.1]
  exact three_ite Iff.rfl Iff.rfl (fun _ => ⟨rfl, rfl, fun k => hφ _ _ _ _ _ _ (h.2.2 k) (h'.2.2 k)⟩)
    (fun _ => trivial)

theorem Nd3.map {a : Nd α} {b : Nd β} {c : Nd γ} {φ : α → α'} {ψ : β → β'} {χ : γ → γ'} (h : Nd3 R a b c)
    (hφ : ∀ x y z, R x y z → R' (φ x) (ψ y) (χ z)) : Nd3 R' (a.map φ) (b.map ψ) (c.map χ) :=
  ⟨h.1, h.2.1, fun k => hφ _ _ _ (h.2.2 k)⟩

theorem Nd3.atleast3d {a : Nd α} {b : Nd β} {c : Nd γ} (h : Nd3 R a b c) :
    Nd3 R a.atleast3d b.atleast3d c.atleast3d := ⟨congrArg shape3 h.1, congrArg shape3 h.2.1, h.2.2⟩

theorem Nd3.pad {a : Nd α} {b : Nd β} {c : Nd γ} (h : Nd3 R a b c) (width : List (Nat × Nat)) (mode : PadMode)
    {x : α} {y : β} {z : γ} (h0 : R x y z) : Three (Nd3 R) (a.pad width mode x) (b.pad width mode y) (c.pad width mode z) := by
  unfold Nd.pad
  rw [h.1, h.2.1]
  refine three_ite Iff.rfl Iff.rfl (fun _ => trivial)
    (fun _ => three_ite Iff.rfl Iff.rfl (fun _ => trivial) (fun _ => ⟨rfl, rfl, fun k => ?_⟩))
  dsimp only [Nd.ofFn, Nd.extend]
  cases mode
  · dsimp only
    rw [h.1, h.2.1]
    split
    · exact h.at _
    · exact h0
  · dsimp only
    rw [h.1, h.2.1]
    exact h.at _

theorem Nd3.view {a : Nd α} {b : Nd β} {c : Nd γ} (h : Nd3 R a b c) (ranges : List (Int × Int)) :
    Three (Nd3 R) (a.view ranges) (b.view ranges) (c.view ranges) := by
  unfold Nd.view
  rw [h.1, h.2.1]
  exact three_ite Iff.rfl Iff.rfl (fun _ => trivial)
    (fun _ => three_ite Iff.rfl Iff.rfl (fun _ => trivial) (fun _ => ⟨rfl, rfl, fun k => h.at _⟩))

theorem Nd3.addAt [Add α] [Add β] [Add γ] {a : Nd α} {b : Nd β} {c : Nd γ} (h : Nd3 R a b c)
    {R' : α → β → γ → Prop} {x : α} {y : β} {z : γ}
    (h1 : ∀ x' y' z', R x' y' z' → R' (x' + x) (y' + y) (z' + z)) (h2 : ∀ x' y' z', R x' y' z' → R' x' y' z')
    (i : List Int) : Three (Nd3 R') (a.addAt i x) (b.addAt i y) (c.addAt i z) := by
  unfold Nd.addAt Nd.valid Nd.size
  rw [h.1, h.2.1]
  refine three_ite Iff.rfl Iff.rfl (fun _ => ⟨rfl, rfl, fun k => ?_⟩) (fun _ => trivial)
  dsimp only
  split
  · exact h1 _ _ _ (h.2.2 k)
  · exact h2 _ _ _ (h.2.2 k)

end arrays

theorem nd3_unmasked (hr : ExactInts rnd) {m : Nd Int} (h : Bits m) (pad : List (Nat × Nat)) (x : List Int) :
    Three (Nd3 Bit) (unmasked (K := Fl rnd) m pad x) (unmasked (K := ℚ) m pad x) (unmasked (K := ℚ) m pad x) := by
  unfold unmasked
  cases e : m.view (around pad x) with
  | ok v =>
    refine ⟨rfl, rfl, fun k => ?_⟩
    have hv : v.get k = 0 ∨ v.get k = 1 := by
      unfold Nd.view at e
      split at e
      · cases e
      · split at e
        · cases e
        · cases e
          exact h _
    have e0 : rnd 0 = 0 := by simpa using hr 0 (by norm_num)
    have e1 : rnd 1 = 1 := by simpa using hr 1 (by norm_num)
    have c0 : ((0 : Int) : Fl rnd) = ⟨0⟩ := by ext; change rnd ((0 : Int) : ℚ) = 0; simpa using e0
    have c1 : ((1 : Int) : Fl rnd) = ⟨1⟩ := by ext; change rnd ((1 : Int) : ℚ) = 1; simpa using e1
    rcases hv with hv | hv
    · simp only [Nd.map, hv, c0]
      refine ⟨?_, rfl, by simp⟩
      change rnd (1 - 0) = _
      simpa using e1
    · simp only [Nd.map, hv, c1]
      refine ⟨?_, rfl, by simp⟩
      change rnd (1 - 1) = _
      simpa using e0
  | throws => trivial
  | ub => trivial
  | diverge => trivial

/-! ### ensembles -/

/-- The same ensemble; the first moment and the norm are related by `R` and `Q`. -/
structure Ens3 (R Q : Fl rnd → ℚ → ℚ → Prop) (E : Ensemble (Fl rnd)) (E' E'' : Ensemble ℚ) : Prop where
  stat : E.stat = E'.stat ∧ E''.stat = E'.stat
  periodic : E.periodic = E'.periodic ∧ E''.periodic = E'.periodic
  variance : E.variance = E'.variance ∧ E''.variance = E'.variance
  shapeOrig : E.shapeOrig = E'.shapeOrig ∧ E''.shapeOrig = E'.shapeOrig
  shape : E.shape = E'.shape ∧ E''.shape = E'.shape
  pad : E.pad = E'.pad ∧ E''.pad = E'.pad
  first : Nd3 R E.first E'.first E''.first
  second : Nd3 (fun _ _ _ => True) E.second E'.second E''.second
  norm : Nd3 Q E.norm E'.norm E''.norm

variable {R R' Q Q' : Fl rnd → ℚ → ℚ → Prop} {E : Ensemble (Fl rnd)} {E' E'' : Ensemble ℚ}

theorem Ens3.mono (h : Ens3 R Q E E' E'') (hR : ∀ x y z, R x y z → R' x y z) (hQ : ∀ x y z, Q x y z → Q' x y z) :
    Ens3 R' Q' E E' E'' := { h with first := h.first.mono hR, norm := h.norm.mono hQ }

theorem make_three (dbg : Bool) (roi : List Nat) (periodic variance : Bool) (hR : R 0 0 0) (hQ : Q 0 0 0) :
    Three (Ens3 R Q) (make (Fl rnd) dbg roi periodic variance) (make ℚ dbg roi periodic variance)
      (make ℚ dbg roi periodic variance) := by
  unfold make
  refine Three.bind (three_refl _) fun _ _ _ _ => ?_
  refine three_ite Iff.rfl Iff.rfl (fun _ => trivial) (fun _ => Three.pure ?_)
  have h : ∀ s : List Nat, Nd3 R (Nd.fill s 0) (Nd.fill s 0) (Nd.fill s 0) := fun s => ⟨rfl, rfl, fun _ => hR⟩
  exact ⟨⟨rfl, rfl⟩, ⟨rfl, rfl⟩, ⟨rfl, rfl⟩, ⟨rfl, rfl⟩, ⟨rfl, rfl⟩, ⟨rfl, rfl⟩, (h _).atleast3d,
    ⟨rfl, rfl, fun _ => trivial⟩, ⟨rfl, rfl, fun _ => hQ⟩⟩

section

variable {T : Fl rnd → ℚ → ℚ → Prop} {a : Nd (Fl rnd)} {b c : Nd ℚ}

theorem addFirst_three (h : Ens3 R Q E E' E'') (ha : Nd3 T a b c)
    (hT : ∀ x y z x' y' z', R x y z → T x' y' z' → R' (x + x') (y + y') (z + z')) :
    Three (Ens3 R' Q) (addFirst E a) (addFirst E' b) (addFirst E'' c) := by
  unfold addFirst
  exact Three.bind (nd3_map₂ h.first ha hT) fun A B C hAB => Three.pure { h with first := hAB }

theorem addSecond_three (h : Ens3 R Q E E' E'') (ha : Nd3 T a b c) :
    Three (Ens3 R Q) (addSecond E a) (addSecond E' b) (addSecond E'' c) := by
  unfold addSecond
  exact Three.bind (nd3_map₂ h.second ha fun _ _ _ _ _ _ _ _ => trivial) fun A B C hAB =>
    Three.pure { h with second := hAB }

theorem addNorm_three (h : Ens3 R Q E E' E'') (ha : Nd3 T a b c)
    (hT : ∀ x y z x' y' z', Q x y z → T x' y' z' → Q' (x + x') (y + y') (z + z')) :
    Three (Ens3 R Q') (addNorm E a) (addNorm E' b) (addNorm E'' c) := by
  unfold addNorm
  exact Three.bind (nd3_map₂ h.norm ha hT) fun A B C hAB => Three.pure { h with norm := hAB }

end

theorem Exact.zero_iff {a : Fl rnd} {b s : ℚ} (h : Exact a b s) : (a = 0 ↔ b = 0) ∧ (s = 0 ↔ b = 0) := by
  obtain ⟨h1, rfl⟩ := h
  refine ⟨⟨fun h => ?_, fun h => ?_⟩, abs_eq_zero⟩
  · rw [← h1, h]; rfl
  · ext; rw [h1, h]; rfl

theorem Count.add (hr : ExactInts rnd) {n : ℕ} (hn : n + 1 ≤ 2 ^ 53) {a a' : Fl rnd} {b b' s s' : ℚ}
    (h : Count n a b s) (h' : Bit a' b' s') : Count ((n + 1 : ℕ) : ℤ) (a + a') (b + b') (s + s') := by
  obtain ⟨h1, rfl⟩ := h
  obtain ⟨h2, rfl⟩ := h'.count
  exact ⟨by push_cast; exact h1.add hr h2 (by exact_mod_cast hn), rfl⟩

theorem Count.mono {c c' : ℤ} {a : Fl rnd} {b s : ℚ} (h : Count c a b s) (hc : c ≤ c') : Count c' a b s :=
  ⟨h.1.mono hc, h.2⟩

/-! ### the bodies of the loops -/

section bodies

variable {F G : Nd (Fl rnd)} {F' G' F'' G'' : Nd ℚ} {Fm Gm : Nd Int} {pad : List (Nat × Nat)}

/-- An accumulated statistic of which the norm counts pixels. -/
def Counted (u : ℚ) (n : ℕ) : Ensemble (Fl rnd) → Ensemble ℚ → Ensemble ℚ → Prop := Ens3 (Near u n) (Count n)

theorem Counted.mono (hu : 0 ≤ u) {n m : ℕ} (h : Counted u n E E' E'') (hn : n ≤ m) : Counted u m E E' E'' :=
  Ens3.mono h (fun _ _ _ h => h.mono hu hn) fun _ _ _ h => h.mono (by exact_mod_cast hn)

theorem product_near (hu : 0 ≤ u) (hR : RelError rnd u) {f g w : Fl rnd} {f' g' w' f'' g'' w'' : ℚ}
    (hf : Exact f f' f'') (hg : Exact g g' g'') (hw : Bit w w' w'') :
    Near u 2 (f * g * w) (f' * g' * w') (f'' * g'' * w'') :=
  (((hf.near hu 0).mul hu hR (hg.near hu 0)).mul hu hR (hw.near hu 0)).mono hu (by norm_num)

theorem bodyS2_three (hu : 0 ≤ u) (hR : RelError rnd u) (hr : ExactInts rnd) (hF : Nd3 Exact F F' F'')
    (hG : Nd3 Exact G G' G'') (hGm : Bits Gm) {n : ℕ} (x : List Int) (h : Counted u n E E' E'') (hn : 2 ≤ n)
    (hc : n + 1 ≤ 2 ^ 53) :
    Three (Counted u (n + 1)) (bodyS2 pad F G Fm Gm E x) (bodyS2 pad F' G' Fm Gm E' x)
      (bodyS2 pad F'' G'' Fm Gm E'' x) := by
  unfold bodyS2
  refine Three.bind (three_refl _) fun k k' k'' hk => ?_
  obtain ⟨rfl, rfl, -⟩ := hk
  refine three_ite Iff.rfl Iff.rfl (fun _ => Three.pure (h.mono hu (by omega))) (fun _ => ?_)
  refine Three.bind (hG.view _) fun V V' V'' hV => ?_
  refine Three.bind (nd3_unmasked hr hGm _ _) fun W W' W'' hW => ?_
  refine Three.bind (hF.read x) fun fx fx' fx'' hfx => ?_
  refine three_branch (P := Ens3 (Near u (n + 1)) (Count n)) (not_congr hfx.zero_iff.1) (not_congr hfx.zero_iff.2)
    (fun _ => ?_) (fun _ => Three.pure (Ens3.mono h (fun _ _ _ h => h.mono hu (by omega)) fun _ _ _ h => h))
    fun E1 E1' E1'' h1 => addNorm_three h1 hW fun _ _ _ _ _ _ h h' => h.add hr hc h'
  refine Three.bind (nd3_map₂ (R'' := Near u 2) hV hW fun _ _ _ _ _ _ hg hw => product_near hu hR hfx hg hw)
    fun C C' C'' hC => addFirst_three h hC fun _ _ _ _ _ _ h h' => h.add hu hR h' hn

theorem bodyHH_three (hu : 0 ≤ u) (hR : RelError rnd u) (hr : ExactInts rnd) (hF : Nd3 Equal F F' F'')
    (hFm : Bits Fm) {n : ℕ} (x : List Int) (h : Counted u n E E' E'') (hn : 4 ≤ n) (hc : n + 1 ≤ 2 ^ 53) :
    Three (Counted u (n + 1)) (bodyHH pad F Fm E x) (bodyHH pad F' Fm E' x) (bodyHH pad F'' Fm E'' x) := by
  unfold bodyHH
  refine Three.bind (three_refl _) fun k k' k'' hk => ?_
  obtain ⟨rfl, rfl, -⟩ := hk
  refine three_ite Iff.rfl Iff.rfl (fun _ => Three.pure (h.mono hu (by omega))) (fun _ => ?_)
  refine Three.bind (hF.view _) fun V V' V'' hV => ?_
  refine Three.bind (nd3_unmasked hr hFm _ _) fun W W' W'' hW => ?_
  refine Three.bind (hF.read x) fun fx fx' fx'' hfx => ?_
  refine Three.bind (nd3_map₂ (R'' := Near u 4) hV hW fun g g' g'' w w' w'' hg hw => ?_) fun C C' C'' hC => ?_
  · obtain ⟨e1, rfl⟩ := hg
    obtain ⟨e2, rfl⟩ := hfx
    have h1 : Near (rnd := rnd) u 1 (g - fx) (g'' - fx'') |g'' - fx''| := by
      refine near_round (n := 0) hu hR le_rfl ?_
      rw [e1, e2]
      simp
    have h2 := (h1.pow hu hR 2).mul hu hR (hw.near hu 0)
    rw [sq_abs] at h2
    exact h2.mono hu (by norm_num)
  refine Three.bind (addFirst_three h hC fun _ _ _ _ _ _ h h' => h.add hu hR h' hn) fun E1 E1' E1'' h1 => ?_
  rw [h1.variance.1, h1.variance.2]
  refine three_branch (P := Ens3 (Near u (n + 1)) (Count n)) Iff.rfl Iff.rfl (fun _ => ?_) (fun _ => Three.pure h1)
    fun E2 E2' E2'' h2 => addNorm_three h2 hW fun _ _ _ _ _ _ h h' => h.add hr hc h'
  exact Three.bind (nd3_map₂ (R'' := fun _ _ _ => True) hV hW fun _ _ _ _ _ _ _ _ => trivial) fun D D' D'' hD =>
    addSecond_three h1 hD

theorem bodyW2_three (hu : 0 ≤ u) (hR : RelError rnd u) (hr : ExactInts rnd) (hF : Nd3 Weight F F' F'')
    (hG : Nd3 Exact G G' G'') (hGm : Bits Gm) {n : ℕ} (x : List Int) (h : Ens3 (Near u n) (Weights u n) E E' E'')
    (hn : 2 ≤ n) :
    Three (Ens3 (Near u (n + 1)) (Weights u (n + 1))) (bodyW2 pad F G Gm E x) (bodyW2 pad F' G' Gm E' x)
      (bodyW2 pad F'' G'' Gm E'' x) := by
  unfold bodyW2
  refine Three.bind (hG.view _) fun V V' V'' hV => ?_
  refine Three.bind (nd3_unmasked hr hGm _ _) fun W W' W'' hW => ?_
  refine Three.bind (hF.read x) fun fx fx' fx'' hfx => ?_
  refine three_branch (P := Ens3 (Near u (n + 1)) (Weights u n)) (not_congr hfx.1.zero_iff.1) (not_congr hfx.1.zero_iff.2)
    (fun _ => ?_) (fun _ => Three.pure (Ens3.mono h (fun _ _ _ h => h.mono hu (by omega)) fun _ _ _ h => h))
    fun E1 E1' E1'' h1 => addNorm_three h1
      (hW.map (R' := Weights u 1) fun _ _ _ hw =>
        ⟨((hfx.1.near hu 0).mul hu hR (hw.near hu 0)).mono hu (by norm_num), by rw [hfx.2, hw.2.1]⟩)
      fun _ _ _ _ _ _ h h' => ⟨h.1.add hu hR h'.1 (by omega), by rw [h.2, h'.2]⟩
  refine Three.bind (nd3_map₂ (R'' := Near u 2) hV hW fun _ _ _ _ _ _ hg hw => product_near hu hR hfx.1 hg hw)
    fun C C' C'' hC => addFirst_three h hC fun _ _ _ _ _ _ h h' => h.add hu hR h' hn

end bodies

/-! ### the calls -/

section calls

variable {f g : Nd (Fl rnd)} {f' g' f'' g'' : Nd ℚ} {fmask gmask : Nd Int} {n : ℕ}

theorem pad_nd3 {T : Fl rnd → ℚ → ℚ → Prop} (hf : Nd3 T f f' f'') (h0 : T 0 0 0) (w : List (Nat × Nat)) (mode : PadMode) :
    Three (fun F F' F'' => Nd3 T F F' F'' ∧ (pixelLoop F'.shape w).length = f'.shape.prod)
      (f.atleast3d.pad w mode 0) (f'.atleast3d.pad w mode 0) (f''.atleast3d.pad w mode 0) := by
  have h := hf.atleast3d.pad w mode h0
  cases e : f'.atleast3d.pad w mode 0 with
  | ok F' =>
    rw [e] at h
    cases e' : f.atleast3d.pad w mode 0 <;> rw [e'] at h <;> cases e'' : f''.atleast3d.pad w mode 0 <;> rw [e''] at h <;>
      first
      | exact h.elim
      | exact ⟨h, (pad_shape e).trans (shape3_prod' _)⟩
  | _ =>
    rw [e] at h
    cases e' : f.atleast3d.pad w mode 0 <;> rw [e'] at h <;> cases e'' : f''.atleast3d.pad w mode 0 <;> rw [e''] at h <;>
      first | exact h.elim | trivial

theorem exact_zero : Exact (0 : Fl rnd) 0 0 := ⟨rfl, by simp⟩
theorem equal_zero : Equal (0 : Fl rnd) 0 0 := ⟨rfl, rfl⟩

theorem S2_three (hu : 0 ≤ u) (hR : RelError rnd u) (hr : ExactInts rnd) (dbg : Bool) (h : Counted u n E E' E'')
    (hf : Nd3 Exact f f' f'') (hg : Nd3 Exact g g' g'') (hgm : Bits gmask) (hn : 2 ≤ n)
    (hc : n + f'.shape.prod ≤ 2 ^ 53) :
    Three (Counted u (n + f'.shape.prod)) (S2 dbg E f g fmask gmask) (S2 dbg E' f' g' fmask gmask)
      (S2 dbg E'' f'' g'' fmask gmask) := by
  unfold S2
  rw [hf.1, hf.2.1, hg.1, hg.2.1, h.shapeOrig.1, h.shapeOrig.2, h.stat.1, h.stat.2]
  iterate 7 refine Three.bind (three_refl _) fun _ _ _ _ => ?_
  dsimp only
  rw [h.pad.1, h.pad.2, h.periodic.1, h.periodic.2]
  refine Three.bind (pad_nd3 hf exact_zero _ _) fun F F' F'' hF => ?_
  refine Three.bind (pad_nd3 hg exact_zero _ _) fun G G' G'' hG => ?_
  refine Three.bind (three_refl _) fun M M' M'' hM => ?_
  refine Three.bind (three_refl _) fun W W' W'' hW => ?_
  obtain ⟨rfl, rfl, -⟩ := hM
  obtain ⟨rfl, rfl, eW⟩ := hW
  have hW : Bits W'' := Bits.pad (m := gmask.atleast3d) hgm _ (maskValue_bit _) eW
  rw [hF.1.1, hF.1.2.1, ← hF.2]
  rw [← hF.2] at hc
  refine Three.mono (P := (fun n E E' E'' => 2 ≤ n ∧ Counted u n E E' E'') (n + (pixelLoop F'.shape E'.pad).length)) ?_ fun _ _ _ k => k.2
  refine three_forM (P := fun n E E' E'' => 2 ≤ n ∧ Counted u n E E' E'') (top := 2 ^ 53)
    (fun n x E E' E'' h hc => (bodyS2_three hu hR hr hF.1 hG.1 hW x h.2 h.1 hc).mono fun _ _ _ k => ⟨by omega, k⟩) _ ?_ hc
  exact ⟨hn, ⟨⟨rfl, rfl⟩, ⟨rfl, rfl⟩, h.variance, ⟨rfl, rfl⟩, h.shape, ⟨rfl, rfl⟩, h.first, h.second, h.norm⟩⟩

theorem HH_three (hu : 0 ≤ u) (hR : RelError rnd u) (hr : ExactInts rnd) (dbg : Bool) (h : Counted u n E E' E'')
    (hf : Nd3 Equal f f' f'') (hfm : Bits fmask) (hn : 4 ≤ n) (hc : n + f'.shape.prod ≤ 2 ^ 53) :
    Three (Counted u (n + f'.shape.prod)) (heightheight dbg E f fmask) (heightheight dbg E' f' fmask)
      (heightheight dbg E'' f'' fmask) := by
  unfold heightheight
  rw [hf.1, hf.2.1, h.shapeOrig.1, h.shapeOrig.2, h.stat.1, h.stat.2]
  iterate 4 refine Three.bind (three_refl _) fun _ _ _ _ => ?_
  dsimp only
  rw [h.pad.1, h.pad.2, h.periodic.1, h.periodic.2]
  refine Three.bind (pad_nd3 hf equal_zero _ _) fun F F' F'' hF => ?_
  refine Three.bind (three_refl _) fun W W' W'' hW => ?_
  obtain ⟨rfl, rfl, eW⟩ := hW
  have hW : Bits W'' := Bits.pad (m := fmask.atleast3d) hfm _ (maskValue_bit _) eW
  rw [hF.1.1, hF.1.2.1, ← hF.2]
  rw [← hF.2] at hc
  refine Three.mono (P := (fun n E E' E'' => 4 ≤ n ∧ Counted u n E E' E'') (n + (pixelLoop F'.shape E'.pad).length)) ?_ fun _ _ _ k => k.2
  refine three_forM (P := fun n E E' E'' => 4 ≤ n ∧ Counted u n E E' E'') (top := 2 ^ 53)
    (fun n x E E' E'' h hc => (bodyHH_three hu hR hr hF.1 hW x h.2 h.1 hc).mono fun _ _ _ k => ⟨by omega, k⟩) _ ?_ hc
  exact ⟨hn, ⟨⟨rfl, rfl⟩, ⟨rfl, rfl⟩, h.variance, ⟨rfl, rfl⟩, h.shape, ⟨rfl, rfl⟩, h.first, h.second, h.norm⟩⟩

theorem W2_three (hu : 0 ≤ u) (hR : RelError rnd u) (hr : ExactInts rnd) (dbg : Bool)
    (h : Ens3 (Near u n) (Weights u n) E E' E'')
    (hf : Nd3 Weight f f' f'') (hg : Nd3 Exact g g' g'') (hgm : Bits gmask) (hn : 2 ≤ n) :
    Three (Ens3 (Near u (n + f'.shape.prod)) (Weights u (n + f'.shape.prod))) (W2 dbg E f g gmask) (W2 dbg E' f' g' gmask)
      (W2 dbg E'' f'' g'' gmask) := by
  unfold W2
  rw [hf.1, hf.2.1, hg.1, hg.2.1, h.shapeOrig.1, h.shapeOrig.2, h.stat.1, h.stat.2]
  iterate 5 refine Three.bind (three_refl _) fun _ _ _ _ => ?_
  dsimp only
  rw [h.pad.1, h.pad.2, h.periodic.1, h.periodic.2]
  refine Three.bind (pad_nd3 hf ⟨exact_zero, rfl⟩ _ _) fun F F' F'' hF => ?_
  refine Three.bind (pad_nd3 hg exact_zero _ _) fun G G' G'' hG => ?_
  refine Three.bind (three_refl _) fun W W' W'' hW => ?_
  obtain ⟨rfl, rfl, eW⟩ := hW
  have hW : Bits W'' := Bits.pad (m := gmask.atleast3d) hgm _ (maskValue_bit _) eW
  rw [hF.1.1, hF.1.2.1, ← hF.2]
  refine Three.mono (P := (fun n E E' E'' => 2 ≤ n ∧ Ens3 (Near u n) (Weights u n) E E' E'') (n + (pixelLoop F'.shape E'.pad).length)) ?_ fun _ _ _ k => k.2
  refine three_forM (P := fun n E E' E'' => 2 ≤ n ∧ Ens3 (Near u n) (Weights u n) E E' E'') (top := n + (pixelLoop F'.shape E'.pad).length)
    (fun n x E E' E'' h hc => (bodyW2_three hu hR hr hF.1 hG.1 hW x h.2 h.1).mono fun _ _ _ k => ⟨by omega, k⟩) _ ?_ le_rfl
  exact ⟨hn, ⟨⟨rfl, rfl⟩, ⟨rfl, rfl⟩, h.variance, ⟨rfl, rfl⟩, h.shape, ⟨rfl, rfl⟩, h.first, h.second, h.norm⟩⟩

/-! ### the mean -/

theorem sum_near (hu : 0 ≤ u) (hR : RelError rnd u) {T : Fl rnd → ℚ → ℚ → Prop} (hT : ∀ a b c, T a b c → Near u 0 a b c)
    {α : Type} (p : α → Fl rnd) (q r : α → ℚ) : ∀ (l : List α), (∀ k ∈ l, T (p k) (q k) (r k)) →
    Near u l.length (l.map p).sum (l.map q).sum (l.map r).sum
  | [], _ => near_zero _
  | k :: l, h => by
    have ih := sum_near hu hR hT p q r l fun k hk => h k (List.mem_cons_of_mem _ hk)
    have h1 := ih.add hu hR (hT _ _ _ (h k (by simp))) (Nat.zero_le _)
    simp only [List.map_cons, List.sum_cons, List.length_cons]
    rw [add_comm (q k), add_comm (r k)]
    have e : ∀ a b : Fl rnd, a + b = b + a := fun a b => by ext; change rnd (_ + _) = rnd (_ + _); rw [add_comm]
    rw [e]
    exact h1

theorem nd3_sum (hu : 0 ≤ u) (hR : RelError rnd u) {T : Fl rnd → ℚ → ℚ → Prop}
    (hT : ∀ a b c, T a b c → Near u 0 a b c) (h : Nd3 T f f' f'') :
    Near u f'.shape.prod f.sum f'.sum f''.sum := by
  have := sum_near hu hR hT f.get f'.get f''.get (List.range f'.size) fun k _ => h.2.2 k
  unfold Nd.sum Nd.toList
  have e1 : f.size = f'.size := by unfold Nd.size; rw [h.1]
  have e2 : f''.size = f'.size := by unfold Nd.size; rw [h.2.1]
  rw [e1, e2]
  rw [List.length_range] at this
  rwa [show f'.size = f'.shape.prod from Cluster.prodShape_eq _] at this ⊢

theorem addMean_three (hu : 0 ≤ u) (hR : RelError rnd u) (hr : ExactInts rnd) (h : Counted u n E E' E'') {m : ℕ}
    {a1 a2 a3 : Fl rnd} {b1 b2 b3 c1 c2 c3 : ℚ} (h1 : Near u m a1 b1 c1) (h3 : Count m a3 b3 c3)
    (hc : n + m ≤ 2 ^ 53) :
    Three (Counted u (n + (m + 1)))
      (do
        let first ← addTo0 E.first a1
        let second ← addTo0 E.second a2
        let norm ← addTo0 E.norm a3
        pure { E with stat := .mean, first := first, second := second, norm := norm })
      (do
        let first ← addTo0 E'.first b1
        let second ← addTo0 E'.second b2
        let norm ← addTo0 E'.norm b3
        pure { E' with stat := .mean, first := first, second := second, norm := norm })
      (do
        let first ← addTo0 E''.first c1
        let second ← addTo0 E''.second c2
        let norm ← addTo0 E''.norm c3
        pure { E'' with stat := .mean, first := first, second := second, norm := norm }) := by
  refine Three.bind (h.first.addAt (R' := Near u (n + (m + 1))) (fun _ _ _ k => ?_) (fun _ _ _ k => k.mono hu (by omega)) _)
    fun _ _ _ k1 => ?_
  · exact (k.mono hu (show n ≤ n + m by omega)).add hu hR h1 (by omega)
  refine Three.bind (h.second.addAt (R' := fun _ _ _ => True) (fun _ _ _ k => trivial) (fun _ _ _ k => trivial) _)
    fun _ _ _ k2 => ?_
  refine Three.bind (h.norm.addAt (R' := Count ((n + (m + 1) : ℕ) : ℤ)) (fun _ _ _ k => ?_)
    (fun _ _ _ k => k.mono (by push_cast; omega)) _) fun _ _ _ k3 => ?_
  · obtain ⟨e1, rfl⟩ := k
    obtain ⟨e2, rfl⟩ := h3
    exact ⟨(e1.add hr e2 (by exact_mod_cast hc)).mono (by push_cast; omega), rfl⟩
  exact ⟨⟨rfl, rfl⟩, h.periodic, h.variance, h.shapeOrig, h.shape, h.pad, k1, k2, k3⟩

theorem mean_three (hu : 0 ≤ u) (hR : RelError rnd u) (hr : ExactInts rnd) (dbg : Bool) (h : Counted u n E E' E'')
    (hf : Nd3 Exact f f' f'') (hc : n + f'.shape.prod ≤ 2 ^ 53) :
    Three (Counted u (n + (f'.shape.prod + 1))) (mean dbg E f) (mean dbg E' f') (mean dbg E'' f'') := by
  have s1 : f.size = f'.shape.prod := by unfold Nd.size; rw [hf.1, Cluster.prodShape_eq]
  have s2 : f'.size = f'.shape.prod := Cluster.prodShape_eq _
  have s3 : f''.size = f'.shape.prod := by unfold Nd.size; rw [hf.2.1, Cluster.prodShape_eq]
  unfold mean
  rw [s1, s2, s3]
  refine Three.bind (P := fun _ _ _ => True)
    (by rw [h.shape.1, h.shape.2]; exact (three_refl _).mono fun _ _ _ _ => trivial) fun _ _ _ _ => ?_
  refine Three.bind (P := fun _ _ _ => True)
    (by rw [h.stat.1, h.stat.2]; exact (three_refl _).mono fun _ _ _ _ => trivial) fun _ _ _ _ => ?_
  have h3 : Count (rnd := rnd) (f'.shape.prod : ℕ) (f'.shape.prod : Nat) (f'.shape.prod : Nat) (f'.shape.prod : Nat) :=
    ⟨same_nat hr le_rfl (by exact_mod_cast (by omega : f'.shape.prod ≤ 2 ^ 53)), rfl⟩
  exact addMean_three hu hR hr h (nd3_sum hu hR (fun _ _ _ h => h.near hu 0) hf) h3 hc

theorem meanMask_three (hu : 0 ≤ u) (hR : RelError rnd u) (hr : ExactInts rnd) (dbg : Bool) (h : Counted u n E E' E'')
    (hf : Nd3 Exact f f' f'') (hs : fmask.shape = f'.shape) (hm : Bits fmask) (hc : n + f'.shape.prod ≤ 2 ^ 53) :
    Three (Counted u (n + (f'.shape.prod + 1))) (meanMask dbg E f fmask) (meanMask dbg E' f' fmask)
      (meanMask dbg E'' f'' fmask) := by
  unfold meanMask
  rw [hf.1, hf.2.1]
  iterate 2 refine Three.bind (three_refl _) fun _ _ _ _ => ?_
  refine Three.bind (P := fun _ _ _ => True)
    (by rw [h.shape.1, h.shape.2]; exact (three_refl _).mono fun _ _ _ _ => trivial) fun _ _ _ _ => ?_
  refine Three.bind (P := fun _ _ _ => True)
    (by rw [h.stat.1, h.stat.2]; exact (three_refl _).mono fun _ _ _ _ => trivial) fun _ _ _ _ => ?_
  unfold Nd.map₂
  rw [hf.1, hf.2.1, hs]
  simp only [if_true, ok_bind]
  have s1 : Nd3 (Exact (rnd := rnd)) ⟨f'.shape, fun k => if fmask.get k = 0 then f.get k else 0⟩
      ⟨f'.shape, fun k => if fmask.get k = 0 then f'.get k else 0⟩
      ⟨f'.shape, fun k => if fmask.get k = 0 then f''.get k else 0⟩ := by
    refine ⟨rfl, rfl, fun k => ?_⟩
    dsimp only
    split
    · exact hf.2.2 k
    · exact exact_zero
  have s3 : SameNd (rnd := rnd) 1 (fmask.map fun m => ((1 - m : Int) : Fl rnd)) (fmask.map fun m => ((1 - m : Int) : ℚ)) := by
    refine ⟨rfl, fun k => same_int hr ?_ (by norm_num)⟩
    rcases hm k with e | e <;> rw [e] <;> norm_num
  have k3 := s3.sum hr (by
    show (fmask.shape.prod : ℤ) * 1 ≤ 2 ^ 53
    rw [hs, mul_one]; exact_mod_cast (by omega : f'.shape.prod ≤ 2 ^ 53))
  have k1 := nd3_sum hu hR (fun _ _ _ h => h.near hu 0) s1
  refine addMean_three hu hR hr h k1 ⟨k3.mono ?_, rfl⟩ hc
  show (fmask.shape.prod : ℤ) * 1 ≤ _
  rw [hs, mul_one]

/-! ### the result -/

theorem norm1_pos (x : ℚ) : 0 < norm1 x := by
  unfold norm1
  split
  · norm_num
  · push Not at *; assumption

theorem norm1_int (d : ℤ) : (norm1 (⟨d⟩ : Fl rnd)).val = norm1 (d : ℚ) := by
  unfold norm1
  have : (⟨d⟩ : Fl rnd) ≤ 0 ↔ (d : ℚ) ≤ 0 := Iff.rfl
  by_cases hd : (d : ℚ) ≤ 0
  · rw [if_pos hd, if_pos (this.2 hd)]; rfl
  · rw [if_neg hd, if_neg (fun h => hd (this.1 h))]

/-- What `result` does at the end: a square root for `heightheight`. -/
def rooted (st : Stat) (pow05 : Fl rnd → Fl rnd) (v : Fl rnd) : Fl rnd := if st = .heightheight then pow05 v else v

/-- The result of a statistic of which the norm counts pixels: one more rounding. -/
theorem result_counted (hu : 0 ≤ u) (hR : RelError rnd u) (h : Counted u n E E' E'') (pow05 : Fl rnd → Fl rnd) :
    Three (Nd3 fun a b c => ∃ v, a = rooted E'.stat pow05 v ∧ Near u (n + 1) v b c) (result pow05 E) (result id E')
      (result id E'') := by
  unfold result
  refine Three.bind (nd3_map₂ (R'' := Near u (n + 1)) h.first h.norm fun a b c a' b' c' h1 h2 => ?_)
    fun A B C hA => ?_
  · obtain ⟨⟨d, rfl, rfl, -⟩, rfl⟩ := h2
    have hp := norm1_pos (d : ℚ)
    refine near_round (x := a.val / (norm1 (⟨d⟩ : Fl rnd)).val) hu hR ?_ ?_
    · rw [abs_div, abs_of_pos hp]
      exact div_le_div_of_nonneg_right h1.1 hp.le
    · rw [norm1_int, ← sub_div, abs_div, abs_of_pos hp, ← mul_div_assoc]
      exact div_le_div_of_nonneg_right h1.2 hp.le
  · rw [h.stat.1, h.stat.2]
    refine Three.pure ⟨h.shapeOrig.1, h.shapeOrig.2, fun k => ⟨A.get k, ?_, ?_⟩⟩
    · unfold rooted
      split <;> rfl
    · have := hA.2.2 k
      split <;> exact this

/-- The result of `W2`, with weights that are not negative. -/
theorem result_weighted (hu : 0 ≤ u) (hR : RelError rnd u) (h : Ens3 (Near u n) (Weights u n) E E' E'')
    (hst : E'.stat ≠ .heightheight) (hn : (1 + u) ^ n - 1 < 1) (pow05 : Fl rnd → Fl rnd) :
    Three (Nd3 fun a b c => |b| ≤ c ∧
        |a.val - b| ≤ (u + (1 + u) * (2 * ((1 + u) ^ n - 1) / (1 - ((1 + u) ^ n - 1)))) * c)
      (result pow05 E) (result id E') (result id E'') := by
  unfold result
  refine Three.bind (nd3_map₂ (R'' := fun a b c => |b| ≤ c ∧
        |a.val - b| ≤ (u + (1 + u) * (2 * ((1 + u) ^ n - 1) / (1 - ((1 + u) ^ n - 1)))) * c)
      h.first h.norm fun a b c a' b' c' h1 h2 => ?_) fun A B C hA => ?_
  · obtain ⟨⟨h3, h4⟩, rfl⟩ := h2
    obtain ⟨h1, h2⟩ := h1
    set γ := (1 + u) ^ n - 1 with hγ
    have hγ0 : 0 ≤ γ := gamma_nonneg hu n
    have hc' : 0 ≤ c' := (abs_nonneg _).trans h3
    have hc : 0 ≤ c := (abs_nonneg _).trans h1
    have key : ∀ x N : ℚ, 0 < N → |x - b / N| ≤ 2 * γ / (1 - γ) * (c / N) → |b / N| ≤ c / N ∧
        |rnd x - b / N| ≤ (u + (1 + u) * (2 * γ / (1 - γ))) * (c / N) := by
      intro x N hN hx
      have hb : |b / N| ≤ c / N := by
        rw [abs_div, abs_of_pos hN]
        exact div_le_div_of_nonneg_right h1 hN.le
      refine ⟨hb, ?_⟩
      have e1 := hR x
      have e2 : |x| ≤ |x - b / N| + |b / N| := by
        have := abs_add_le (x - b / N) (b / N)
        rwa [sub_add_cancel] at this
      have e3 : |rnd x - b / N| ≤ |rnd x - x| + |x - b / N| := by
        have := abs_add_le (rnd x - x) (x - b / N)
        rwa [sub_add_sub_cancel] at this
      have e4 : u * |x| ≤ u * (2 * γ / (1 - γ) * (c / N) + c / N) := mul_le_mul_of_nonneg_left (by linarith) hu
      have e5 : (u + (1 + u) * (2 * γ / (1 - γ))) * (c / N) =
          u * (2 * γ / (1 - γ) * (c / N) + c / N) + 2 * γ / (1 - γ) * (c / N) := by ring
      rw [e5]
      linarith
    change |b / norm1 c'| ≤ c / norm1 c' ∧ |rnd (a.val / (norm1 a').val) - b / norm1 c'| ≤ _
    rcases hc'.eq_or_lt with rfl | hpos
    · have ha' : a'.val = 0 := by
        rw [mul_zero, sub_zero, abs_nonpos_iff] at h4
        exact h4
      have e1 : (norm1 a').val = 1 := by
        have : a' ≤ 0 := le_of_eq ha'
        unfold norm1
        rw [if_pos this]; rfl
      have e2 : norm1 (0 : ℚ) = 1 := if_pos le_rfl
      rw [e1, e2]
      refine key _ 1 one_pos ?_
      rw [div_one, div_one, div_one]
      refine h2.trans (mul_le_mul_of_nonneg_right ?_ hc)
      rw [le_div_iff₀ (by linarith)]
      nlinarith
    · have ha' : (1 - γ) * c' ≤ a'.val := by
        have := (abs_le.1 h4).1
        linarith
      have hpa : 0 < a'.val := lt_of_lt_of_le (mul_pos (by linarith) hpos) ha'
      have e1 : (norm1 a').val = a'.val := by
        have : ¬ a' ≤ 0 := not_le.2 hpa
        unfold norm1
        rw [if_neg this]
      have e2 : norm1 c' = c' := if_neg (not_le.2 hpos)
      rw [e1, e2]
      refine key _ c' hpos ?_
      have e3 : a.val / a'.val - b / c' = ((a.val - b) * c' - b * (a'.val - c')) / (a'.val * c') := by
        field_simp
        ring
      rw [e3, abs_div, abs_of_pos (mul_pos hpa hpos), div_le_iff₀ (mul_pos hpa hpos)]
      have e4 : |(a.val - b) * c' - b * (a'.val - c')| ≤ 2 * γ * c * c' := by
        refine (abs_sub _ _).trans ?_
        rw [abs_mul, abs_mul, abs_of_pos hpos]
        have k1 := mul_le_mul_of_nonneg_right h2 hpos.le
        have k2 := mul_le_mul h1 h4 (abs_nonneg _) hc
        linarith
      refine e4.trans ?_
      have e5 : 2 * γ / (1 - γ) * (c / c') * (a'.val * c') = 2 * γ / (1 - γ) * c * a'.val := by
        field_simp
      rw [e5]
      have e6 : 2 * γ * c * c' = 2 * γ / (1 - γ) * c * ((1 - γ) * c') := by
        have : 1 - γ ≠ 0 := by linarith
        field_simp
      rw [e6]
      exact mul_le_mul_of_nonneg_left ha' (mul_nonneg (div_nonneg (by linarith) (by linarith)) hc)
  · rw [h.stat.1, h.stat.2, if_neg hst, if_neg hst, if_neg hst]
    exact Three.pure ⟨h.shapeOrig.1, h.shapeOrig.2, hA.2.2⟩

end calls

/-! ### `double` -/

theorem rnd64_rel : RelError rnd64 (1 / 2 ^ 53) := fun x => by
  have := rnd64_error x
  rwa [div_eq_mul_one_div, mul_comm] at this

/-- `k` roundings of `double` cost at most a relative error of `k / 2 ^ 52`. -/
theorem gamma64 {k : ℕ} (hk : k ≤ 2 ^ 52) : (1 + 1 / 2 ^ 53 : ℚ) ^ k - 1 ≤ k / 2 ^ 52 := by
  induction k with
  | zero => simp
  | succ k ih =>
    have ih := ih (by omega)
    have hk' : (k : ℚ) ≤ 2 ^ 52 := by exact_mod_cast (by omega : k ≤ 2 ^ 52)
    rw [pow_succ]
    push_cast
    have h1 : ((1 + 1 / 2 ^ 53 : ℚ) ^ k) ≤ 1 + k / 2 ^ 52 := by linarith
    have h2 := mul_le_mul_of_nonneg_right h1 (show (0 : ℚ) ≤ 1 + 1 / 2 ^ 53 by norm_num)
    have h3 : (k : ℚ) / 2 ^ 52 ≤ 1 := by
      rw [div_le_one (by norm_num)]
      exact hk'
    have h4 : (1 + (k : ℚ) / 2 ^ 52) * (1 + 1 / 2 ^ 53) - 1 ≤ ((k : ℚ) + 1) / 2 ^ 52 := by
      generalize hx : (k : ℚ) / 2 ^ 52 = x at h3
      have : ((k : ℚ) + 1) / 2 ^ 52 = x + 1 / 2 ^ 52 := by rw [← hx]; ring
      rw [this]
      norm_num at h3 ⊢
      linarith
    linarith

end Verif.Ens
