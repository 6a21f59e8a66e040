import Verif.Lemmas.Rounding
import Verif.Props.Float

/-!
# Statistics of real images in `double` (C88)

The pixels are any numbers (`double f` is the image with these pixels; nothing is rounded on input). Every operation of
the library is rounded to 53 significant bits. The error of a result is bounded by the number of pixels, times
`2 ^ -52`, times the same statistic of the absolute values: the rounding errors of the many additions do not add up to
more than that, for any shapes, masks, boundary conditions and any order of magnitude of the pixels.
-/

set_option linter.unusedSectionVars false

namespace Verif.Props

open Verif Outcome Spec Ens

/-- The image, as `double`. -/
def double (f : Nd ℚ) : Nd (Fl rnd64) := f.map Fl.mk

variable {f g w : Nd ℚ} {roi : List Nat} {periodic : Bool} {fmask gmask : Nd Int}

/-- A mask of zeros and ones, of the shape of the image. (Beyond its size, an array has no elements in the code; in the
model they are to be zeros and ones as well.) -/
structure BitMask (shape : List Nat) (m : Nd Int) : Prop where
  shape : m.shape = shape
  bits : Bits m

theorem BitMask.isMask {shape : List Nat} {m : Nd Int} (h : BitMask shape m) : IsMask m := fun k _ => h.bits k

theorem BitImage.bitMask {shape : List Nat} {m : List Int} (h : BitImage shape m) : BitMask shape (ofInts Int shape m) :=
  ⟨rfl, h.bits⟩

/-- No mask at all. -/
theorem bitMask_none {K : Type} (f : Nd K) : BitMask f.shape (noMask f) := ⟨rfl, bits_noMask f⟩

theorem exact_image (f : Nd ℚ) : Nd3 Exact (double f) f (f.map abs) := ⟨rfl, rfl, fun _ => ⟨rfl, rfl⟩⟩

theorem equal_image (f : Nd ℚ) : Nd3 Equal (double f) f f := ⟨rfl, rfl, fun _ => ⟨rfl, rfl⟩⟩

theorem val_abs (f : Nd ℚ) (x : List Int) : val (f.map abs) x = |val f x| := rfl

theorem u_nonneg : (0 : ℚ) ≤ 1 / 2 ^ 53 := by norm_num

/-- Three runs of a function that makes an ensemble, measures once, and returns the result. -/
theorem three_once {R : Fl rnd64 → ℚ → ℚ → Prop} {P : Ensemble (Fl rnd64) → Ensemble ℚ → Ensemble ℚ → Prop}
    {Q Q' : Fl rnd64 → ℚ → ℚ → Prop} {dbg : Bool} {c1 : Ensemble (Fl rnd64) → Outcome (Ensemble (Fl rnd64))}
    {c2 c3 : Ensemble ℚ → Outcome (Ensemble ℚ)} (hQ : Q 0 0 0) (hQ' : Q' 0 0 0)
    (hc : ∀ E E' E'', Ens3 Q Q' E E' E'' → Three P (c1 E) (c2 E') (c3 E'')) {pow05 : Fl rnd64 → Fl rnd64}
    (hres : ∀ E E' E'', P E E' E'' → Three (Nd3 R) (result pow05 E) (result id E') (result id E'')) {r' r'' : Nd ℚ}
    (e' : (do
      let E ← make ℚ dbg roi periodic true
      let E ← c2 E
      result id E) = ok r')
    (e'' : (do
      let E ← make ℚ dbg roi periodic true
      let E ← c3 E
      result id E) = ok r'') :
    ∃ r, (do
      let E ← make (Fl rnd64) dbg roi periodic true
      let E ← c1 E
      result pow05 E) = ok r ∧ r.shape = r'.shape ∧ r''.shape = r'.shape ∧ ∀ i, R (val r i) (val r' i) (val r'' i) := by
  have h := Three.bind (make_three (R := Q) (Q := Q') dbg roi periodic true hQ hQ')
    fun E E' E'' h => Three.bind (hc E E' E'' h) hres
  rw [e', e''] at h
  generalize ho : (do
      let E ← make (Fl rnd64) dbg roi periodic true
      let E ← c1 E
      result pow05 E : Outcome (Nd (Fl rnd64))) = o at h
  cases o with
  | ok r =>
    refine ⟨r, rfl, h.1, h.2.1, fun i => ?_⟩
    unfold val
    rw [h.1, h.2.1]
    exact h.2.2 _
  | throws => exact h.elim
  | ub => exact h.elim
  | diverge => exact h.elim

/-- A result after `k` roundings. -/
theorem near64 {k : ℕ} (hk : k ≤ 2 ^ 52) {a : Fl rnd64} {b s : ℚ} (h : Near (1 / 2 ^ 53) k a b s) :
    |a.val - b| ≤ k / 2 ^ 52 * s :=
  h.2.trans (mul_le_mul_of_nonneg_right (gamma64 hk) ((abs_nonneg _).trans h.1))

theorem Three.and_ok {α β γ : Type} {P : α → β → γ → Prop} {Q : β → Prop} {o : Outcome α} {o' : Outcome β}
    {o'' : Outcome γ} (h : Three P o o' o'') (hQ : ∀ b, o' = ok b → Q b) : Three (fun a b c => P a b c ∧ Q b) o o' o'' := by
  cases o <;> cases o' <;> cases o'' <;> first | exact ⟨h, hQ _ rfl⟩ | exact h

/-- The result of a statistic that counts pixels. -/
theorem three_counted {st : Stat} {n : ℕ} {pow05 : Fl rnd64 → Fl rnd64} {E : Ensemble (Fl rnd64)} {E' E'' : Ensemble ℚ}
    (h : Counted (1 / 2 ^ 53) n E E' E'' ∧ E'.stat = st) :
    Three (Nd3 fun a b c => ∃ v, a = rooted st pow05 v ∧ Near (1 / 2 ^ 53) (n + 1) v b c) (result pow05 E) (result id E')
      (result id E'') := h.2 ▸ result_counted u_nonneg rnd64_rel h.1 pow05

theorem counted_zero : Count (rnd := rnd64) (4 : ℕ) 0 0 0 := ⟨same_zero (by norm_num), rfl⟩

/-- S2 of any two images in `double`. -/
theorem C88_S2 (L : Legal periodic f.shape roi) (hg : g.shape = f.shape) (hmf : BitMask f.shape fmask)
    (hmg : BitMask f.shape gmask) (hbig : f.shape.prod + 5 ≤ 2 ^ 52) (pow05 : Fl rnd64 → Fl rnd64) (dbg : Bool) :
    ∃ r, Api.S2Mask pow05 dbg roi (double f) (double g) fmask gmask periodic = ok r ∧
      r.shape = roi ∧ ∀ i, InBox roi i → let d := displacement roi i
        let l := pairs periodic f.shape
          (fun x y => val fmask x = 0 ∧ Seen periodic gmask d x y) d
        |(val r i).val - average l fun x y => val f x * val g y| ≤
          (f.shape.prod + 5 : ℕ) / 2 ^ 52 * average l fun x y => |val f x * val g y| := by
  obtain ⟨r', e1, e2, e3⟩ := S2_value (K := ℚ) (f := f) (g := g) L hg
    hmf.shape hmg.shape hmf.isMask hmg.isMask id dbg
  obtain ⟨r'', k1, k2, k3⟩ := S2_value (K := ℚ) (f := f.map abs) (g := g.map abs) L hg
    hmf.shape hmg.shape hmf.isMask hmg.isMask id dbg
  obtain ⟨r, h1, h2, h3, h4⟩ := three_once (pow05 := pow05)
    (near_zero 4) counted_zero
    (fun E E' E'' h => Three.and_ok (P := _) (S2_three u_nonneg rnd64_rel rnd64_exact dbg h (exact_image f) (exact_image g)
      hmg.bits (by norm_num) (by omega)) (Q := fun E => E.stat = .S2) fun _ h => (S2_locks h).after.stat)
    (fun E E' E'' h => three_counted h) e1 k1
  refine ⟨r, h1, h2.trans e2, fun i hi => ?_⟩
  obtain ⟨v, hv, h⟩ := h4 i
  rw [show val r i = v from hv]
  rw [e3 i hi, k3 i hi] at h
  have := near64 (by omega) h
  simp only [val_abs, ← abs_mul] at this
  rw [show f.shape.prod + 5 = 4 + f.shape.prod + 1 by omega]
  exact this

/-- For images without negative pixels this is a bound of the relative error. -/
theorem C88_S2_relative (L : Legal periodic f.shape roi) (hg : g.shape = f.shape) (hmf : BitMask f.shape fmask)
    (hmg : BitMask f.shape gmask) (hbig : f.shape.prod + 5 ≤ 2 ^ 52) (hf0 : ∀ x, 0 ≤ val f x) (hg0 : ∀ x, 0 ≤ val g x)
    (pow05 : Fl rnd64 → Fl rnd64) (dbg : Bool) :
    ∃ r, Api.S2Mask pow05 dbg roi (double f) (double g) fmask gmask periodic = ok r ∧
      r.shape = roi ∧ ∀ i, InBox roi i → let d := displacement roi i
        let a := average (pairs periodic f.shape
          (fun x y => val fmask x = 0 ∧ Seen periodic gmask d x y) d)
          fun x y => val f x * val g y
        |(val r i).val - a| ≤ (f.shape.prod + 5 : ℕ) / 2 ^ 52 * a := by
  obtain ⟨r, h1, h2, h3⟩ := C88_S2 L hg hmf hmg hbig pow05 dbg
  refine ⟨r, h1, h2, fun i hi => ?_⟩
  have := h3 i hi
  simp only [abs_mul, abs_of_nonneg (hf0 _), abs_of_nonneg (hg0 _)] at this
  exact this

/-- heightheight of any image in `double`: the relative error of the number under the square root. -/
theorem C88_heightheight (L : Legal periodic f.shape roi) (hmf : BitMask f.shape fmask)
    (hbig : f.shape.prod + 5 ≤ 2 ^ 52) (pow05 : Fl rnd64 → Fl rnd64) (dbg : Bool) :
    ∃ r, Api.heightheightMask pow05 dbg roi (double f) fmask periodic = ok r ∧
      r.shape = roi ∧ ∀ i, InBox roi i → let d := displacement roi i
        let a := average (pairs periodic f.shape
          (fun x y => val fmask x = 0 ∧ Seen periodic fmask d x y) d)
          fun x y => (val f y - val f x) ^ 2
        ∃ v, val r i = pow05 v ∧ |v.val - a| ≤ (f.shape.prod + 5 : ℕ) / 2 ^ 52 * a := by
  obtain ⟨r', e1, e2, e3⟩ := HH_value (K := ℚ) (f := f) L hmf.shape hmf.isMask id dbg
  obtain ⟨r, h1, h2, h3, h4⟩ := three_once (pow05 := pow05)
    (near_zero 4) counted_zero
    (fun E E' E'' h => Three.and_ok (P := _) (HH_three u_nonneg rnd64_rel rnd64_exact dbg h (equal_image f)
      hmf.bits (by norm_num) (by omega)) (Q := fun E => E.stat = .heightheight) fun _ h => (HH_locks h).after.stat)
    (fun E E' E'' h => three_counted h) e1 e1
  refine ⟨r, h1, h2.trans e2, fun i hi => ?_⟩
  obtain ⟨v, hv, h⟩ := h4 i
  rw [e3 i hi] at h
  refine ⟨v, hv, ?_⟩
  rw [show f.shape.prod + 5 = 4 + f.shape.prod + 1 by omega]
  exact near64 (by omega) h

/-- The relative error of a weighted average, after `n` roundings of the sums. -/
theorem weighted64 {n : ℕ} (hn : n + 1 ≤ 2 ^ 50) :
    (1 / 2 ^ 53 + (1 + 1 / 2 ^ 53) * (2 * ((1 + 1 / 2 ^ 53) ^ n - 1) / (1 - ((1 + 1 / 2 ^ 53) ^ n - 1))) : ℚ) ≤
      (n + 1 : ℕ) / 2 ^ 50 := by
  have h1 := gamma64 (k := n) (by omega)
  have h0 := gamma_nonneg u_nonneg n
  generalize ((1 + 1 / 2 ^ 53 : ℚ) ^ n - 1) = γ at h0 h1
  have hn' : ((n : ℚ) + 1) / 2 ^ 50 ≤ 1 := by
    rw [div_le_one (by norm_num)]
    exact_mod_cast hn
  push_cast
  have h2 : γ ≤ 1 / 4 := by
    norm_num at h1 hn' ⊢
    linarith
  have h3 : 2 * γ / (1 - γ) ≤ 8 / 3 * γ := by
    rw [div_le_iff₀ (by linarith)]
    nlinarith
  have h4 := mul_le_mul_of_nonneg_left h3 (show (0 : ℚ) ≤ 1 + 1 / 2 ^ 53 by norm_num)
  norm_num at h1 h4 ⊢
  linarith

/-- W2 with any weights that are not negative, in `double`. -/
theorem C88_W2 (L : Legal periodic w.shape roi) (hf : f.shape = w.shape) (hw : ∀ x, 0 ≤ w.get x)
    (hmf : BitMask w.shape fmask) (hbig : w.shape.prod + 5 ≤ 2 ^ 50) (pow05 : Fl rnd64 → Fl rnd64) (dbg : Bool) :
    ∃ r, Api.W2Mask pow05 dbg roi (double w) (double f) fmask periodic = ok r ∧
      r.shape = roi ∧ ∀ i, InBox roi i → let d := displacement roi i
        let l := pairs periodic w.shape (Seen periodic fmask d) d
        |(val r i).val - (total l fun x y => val w x * val f y) / norm1 (total l fun x _ => val w x)| ≤
          (w.shape.prod + 5 : ℕ) / 2 ^ 50 *
            ((total l fun x y => val w x * |val f y|) / norm1 (total l fun x _ => val w x)) := by
  have hwe : Nd3 Weight (double w) w w := ⟨rfl, rfl, fun k => ⟨⟨rfl, (abs_of_nonneg (hw k)).symm⟩, rfl⟩⟩
  obtain ⟨r', e1, e2, e3⟩ := W2_value (K := ℚ) (f := w) (g := f) L hf
    hmf.shape hmf.isMask id dbg
  obtain ⟨r'', k1, k2, k3⟩ := W2_value (K := ℚ) (f := w) (g := f.map abs) L hf
    hmf.shape hmf.isMask id dbg
  have hγ : (1 + 1 / 2 ^ 53 : ℚ) ^ (4 + w.shape.prod) - 1 < 1 := by
    refine lt_of_le_of_lt (gamma64 (by omega)) ?_
    rw [div_lt_one (by norm_num)]
    have : 4 + w.shape.prod < 2 ^ 52 := by omega
    exact_mod_cast this
  obtain ⟨r, h1, h2, h3, h4⟩ := three_once (pow05 := pow05)
    (near_zero 4) (Q' := Weights (1 / 2 ^ 53) 4) ⟨near_zero 4, rfl⟩
    (fun E E' E'' h => Three.and_ok (P := _) (W2_three u_nonneg rnd64_rel rnd64_exact dbg h hwe (exact_image f)
      hmf.bits (by norm_num)) (Q := fun E => E.stat = .W2) fun _ h => (W2_locks h).after.stat)
    (fun E E' E'' h => result_weighted u_nonneg rnd64_rel h.1 (by rw [h.2]; decide) hγ pow05) e1 k1
  refine ⟨r, h1, h2.trans e2, fun i hi => ?_⟩
  have h := h4 i
  rw [e3 i hi, k3 i hi] at h
  simp only [val_abs] at h
  refine h.2.trans (mul_le_mul_of_nonneg_right ?_ ((abs_nonneg _).trans h.1))
  have := weighted64 (n := 4 + w.shape.prod) (by omega)
  rwa [show 4 + w.shape.prod + 1 = w.shape.prod + 5 by omega] at this

/-! ### Any history -/

/-- The images of a realisation, as `double`. -/
def Realisation.double : Realisation ℚ → Realisation (Fl rnd64)
  | .mean f m => .mean (Props.double f) m
  | .S2 f g m => .S2 (Props.double f) (Props.double g) m
  | .C2 f g m => .C2 (Props.double f) (Props.double g) m
  | .W2 w f m => .W2 (Props.double w) (Props.double f) m
  | .W2c clusters centers f m mode => .W2c clusters centers (Props.double f) m mode
  | .heightheight f m => .heightheight (Props.double f) m
  | .L f mode => .L (Props.double f) mode

/-- The absolute values of the pixels, but not of weights (`heightheight` only depends on differences, that it squares:
no change). -/
def Realisation.magnitude : Realisation ℚ → Realisation ℚ
  | .mean f m => .mean (f.map abs) m
  | .S2 f g m => .S2 (f.map abs) (g.map abs) m
  | .W2 w f m => .W2 w (f.map abs) m
  | .W2c clusters centers f m mode => .W2c clusters centers (f.map abs) m mode
  | r => r

/-- The number of pixels of a realisation. -/
def Realisation.pixels : Realisation ℚ → Nat
  | .mean f _ => f.shape.prod
  | .S2 f _ _ => f.shape.prod
  | .C2 f _ _ => f.shape.prod
  | .W2 w _ _ => w.shape.prod
  | .W2c _ _ f _ _ => f.shape.prod
  | .heightheight f _ => f.shape.prod
  | .L f _ => f.shape.prod

/-- The masks hold zeros and ones. -/
def Realisation.BitMasks : Realisation ℚ → Prop
  | .mean _ m => ∀ m' ∈ m, Bits m'
  | .S2 _ _ m => ∀ m' ∈ m, Bits m'.2
  | .W2 _ _ m => ∀ m' ∈ m, Bits m'
  | .heightheight _ m => ∀ m' ∈ m, Bits m'
  | _ => True

theorem Realisation.three {r : Realisation ℚ} {junk : ℚ} {fuel : Nat} {st : Stat} (hst : st = .mean ∨ st = .S2 ∨ st = .heightheight)
    (hL : r.Legal fuel periodic roi) (hs : r.stat = st) (hb : r.BitMasks) (dbg : Bool) {n : ℕ} (hn : 4 ≤ n)
    (hc : n + (r.pixels + 1) ≤ 2 ^ 53) {E : Ensemble (Fl rnd64)} {E' E'' : Ensemble ℚ}
    (h : Counted (1 / 2 ^ 53) n E E' E'') :
    Three (Counted (1 / 2 ^ 53) (n + (r.pixels + 1))) (r.double.call junk fuel dbg E) (r.call junk fuel dbg E')
      (r.magnitude.call junk fuel dbg E'') := by
  have up : ∀ {m : ℕ} {o : Outcome (Ensemble (Fl rnd64))} {o' o'' : Outcome (Ensemble ℚ)},
      Three (Counted (1 / 2 ^ 53) (n + m)) o o' o'' → Three (Counted (1 / 2 ^ 53) (n + (m + 1))) o o' o'' :=
    fun h => h.mono fun _ _ _ k => k.mono u_nonneg (by omega)
  match r, hL, hs, hb, hc with
  | .mean f none, _, _, _, hc =>
    exact mean_three u_nonneg rnd64_rel rnd64_exact dbg h (exact_image f) (by simp only [Realisation.pixels] at hc; omega)
  | .mean f (some m), hL, _, hb, hc =>
    exact meanMask_three u_nonneg rnd64_rel rnd64_exact dbg h (exact_image f) (hL.2 m rfl).1 (hb m rfl)
      (by simp only [Realisation.pixels] at hc; omega)
  | .S2 f g none, _, _, _, hc =>
    exact up (S2_three u_nonneg rnd64_rel rnd64_exact dbg h (exact_image f) (exact_image g) (bits_noMask f) (by omega)
      (by simp only [Realisation.pixels] at hc; omega))
  | .S2 f g (some m), _, _, hb, hc =>
    exact up (S2_three u_nonneg rnd64_rel rnd64_exact dbg h (exact_image f) (exact_image g) (hb m rfl) (by omega)
      (by simp only [Realisation.pixels] at hc; omega))
  | .heightheight f none, _, _, _, hc =>
    exact up (HH_three u_nonneg rnd64_rel rnd64_exact dbg h (equal_image f) (bits_noMask f) (by omega)
      (by simp only [Realisation.pixels] at hc; omega))
  | .heightheight f (some m), _, _, hb, hc =>
    exact up (HH_three u_nonneg rnd64_rel rnd64_exact dbg h (equal_image f) (hb m rfl) (by omega)
      (by simp only [Realisation.pixels] at hc; omega))
  | .C2 .., _, hs, _, _ => subst hs; simp [Realisation.stat] at hst
  | .W2 .., _, hs, _, _ => subst hs; simp [Realisation.stat] at hst
  | .W2c .., _, hs, _, _ => subst hs; simp [Realisation.stat] at hst
  | .L .., _, hs, _, _ => subst hs; simp [Realisation.stat] at hst

theorem Realisation.legal_magnitude {fuel : Nat} {r : Realisation ℚ} (h : r.Legal fuel periodic roi) :
    r.magnitude.Legal fuel periodic roi := by cases r <;> exact h

theorem Realisation.stat_magnitude (r : Realisation ℚ) : r.magnitude.stat = r.stat := by cases r <;> rfl

theorem histories_three {junk : ℚ} {fuel : Nat} {st : Stat} (hst : st = .mean ∨ st = .S2 ∨ st = .heightheight)
    (dbg : Bool) : ∀ {l : List (Realisation ℚ)}, (∀ r ∈ l, r.Legal fuel periodic roi ∧ r.stat = st ∧ r.BitMasks) →
    ∀ {n : ℕ}, 4 ≤ n → n + (l.map fun r => r.pixels + 1).sum ≤ 2 ^ 53 →
    ∀ {E : Ensemble (Fl rnd64)} {E' E'' : Ensemble ℚ}, Counted (1 / 2 ^ 53) n E E' E'' →
      Three (Counted (1 / 2 ^ 53) (n + (l.map fun r => r.pixels + 1).sum))
        (forM (l.map Realisation.double) E fun E r => r.call junk fuel dbg E)
        (forM l E' fun E r => r.call junk fuel dbg E)
        (forM (l.map Realisation.magnitude) E'' fun E r => r.call junk fuel dbg E)
  | [], _, _, _, _, _, _, _, h => by simpa [forM, Three] using h
  | r :: l, hl, n, hn, hc, E, E', E'', h => by
    obtain ⟨hL, hs, hb⟩ := hl r (by simp)
    rw [List.map_cons, List.sum_cons] at hc
    have e : n + ((r :: l).map fun r => r.pixels + 1).sum = n + (r.pixels + 1) + (l.map fun r => r.pixels + 1).sum := by
      rw [List.map_cons, List.sum_cons]; omega
    rw [e]
    exact Three.bind (Realisation.three hst hL hs hb dbg hn (by omega) h) fun _ _ _ h' =>
      histories_three hst dbg (fun r hr => hl r (List.mem_cons_of_mem _ hr)) (by omega) (by omega) h'

/-- Any history of realisations of mean, S2 or heightheight in `double`: the norm is exact, and the errors of the first
moment and of the result (under the square root of heightheight) are at most the number of pixels and of realisations,
times `2 ^ -52`, times the same quantity of the absolute values. -/
theorem C88_history (hroi : roi.length ≤ 3) (h0 : 0 ∉ roi) {variance : Bool} {junk : ℚ} {fuel : Nat} {st : Stat}
    (hst : st = .mean ∨ st = .S2 ∨ st = .heightheight) {l : List (Realisation ℚ)}
    (hl : ∀ r ∈ l, r.Legal fuel periodic roi ∧ r.stat = st ∧ r.BitMasks) (hne : l ≠ []) {N : ℕ}
    (hN : N = (l.map fun r => r.pixels + 1).sum) (hbig : N + 5 ≤ 2 ^ 52) (pow05 : Fl rnd64 → Fl rnd64) (dbg : Bool) :
    ∃ E E' E'', history dbg junk fuel roi periodic variance (l.map Realisation.double) = ok E ∧
      history dbg junk fuel roi periodic variance l = ok E' ∧
      history dbg junk fuel roi periodic variance (l.map Realisation.magnitude) = ok E'' ∧
      (∀ i, (val (dataNorm E) i).val = val (dataNorm E') i ∧
        |(val (dataFirst E) i).val - val (dataFirst E') i| ≤ (N + 4 : ℕ) / 2 ^ 52 * val (dataFirst E'') i) ∧
      ∃ r r' r'', result pow05 E = ok r ∧ result id E' = ok r' ∧ result id E'' = ok r'' ∧ r.shape = roi ∧ ∀ i,
        ∃ v, val r i = (if st = .heightheight then pow05 v else v) ∧
          |v.val - val r' i| ≤ (N + 5 : ℕ) / 2 ^ 52 * val r'' i := by
  obtain ⟨φ, hφ⟩ := history_effect (K := ℚ) (fuel := fuel) (periodic := periodic) (variance := variance) hroi h0 junk st
  obtain ⟨E', e1, g1, s1, -⟩ := hφ l (fun r hr => ⟨(hl r hr).1, (hl r hr).2.1⟩) dbg
  obtain ⟨E'', e2, g2, s2, -⟩ := hφ (l.map Realisation.magnitude) (fun r hr => by
    obtain ⟨q, hq, rfl⟩ := List.mem_map.1 hr
    exact ⟨Realisation.legal_magnitude (hl q hq).1, (Realisation.stat_magnitude q).trans (hl q hq).2.1⟩) dbg
  rw [if_neg hne] at s1
  have h := Three.bind (make_three (R := Near (1 / 2 ^ 53) 4) (Q := Count (4 : ℕ)) dbg roi periodic variance (near_zero 4) counted_zero)
    fun _ _ _ h => histories_three (junk := junk) hst dbg hl le_rfl (by omega) h
  have e1' := e1
  have e2' := e2
  unfold history at e1' e2'
  rw [e1', e2', ← hN] at h
  generalize ho : (do
      let E ← make (Fl rnd64) dbg roi periodic variance
      forM (l.map Realisation.double) E fun E r => r.call junk fuel dbg E : Outcome (Ensemble (Fl rnd64))) = o at h
  cases o with
  | ok E =>
    have hres := three_counted (pow05 := pow05) ⟨h, s1⟩
    rw [result_good g1 id, result_good g2 id] at hres
    refine ⟨E, E', E'', ho, e1, e2, fun i => ?_, ?_⟩
    · unfold dataFirst dataNorm val Nd.reshape
      dsimp only
      rw [h.shapeOrig.1, h.shapeOrig.2]
      constructor
      · obtain ⟨⟨d, a, b, -⟩, -⟩ := h.norm.2.2 (flat E'.shapeOrig i).toNat
        rw [a, b]
      · rw [show N + 4 = 4 + N by omega]
        exact near64 (by omega) (h.first.2.2 _)
    · rw [result_good g1 id, result_good g2 id]
      cases e3 : result pow05 E with
      | ok r =>
        rw [e3] at hres
        refine ⟨r, _, _, rfl, rfl, rfl, hres.1, fun i => ?_⟩
        obtain ⟨v, a, b⟩ := hres.2.2 (flat roi i).toNat
        refine ⟨v, ?_, ?_⟩
        · unfold val
          rw [hres.1]
          exact a
        · rw [show N + 5 = 4 + N + 1 by omega]
          exact near64 (by omega) b
      | throws => rw [e3] at hres; exact hres.elim
      | ub => rw [e3] at hres; exact hres.elim
      | diverge => rw [e3] at hres; exact hres.elim
  | throws => exact h.elim
  | ub => exact h.elim
  | diverge => exact h.elim

/-- The mean of any sequence of images in `double`. -/
theorem C88_mean (hroi : roi.length ≤ 3) (h1 : ∀ n ∈ roi, n = 1) {images : List (Nd ℚ × Option (Nd Int))}
    (hmask : ∀ a ∈ images, ∀ m, a.2 = some m → BitMask a.1.shape m) {data : List ℚ}
    (hdata : data = images.flatMap fun a => unmaskedValues a.1 a.2) (hne : data ≠ []) {N : ℕ}
    (hN : N = (images.map fun a => a.1.shape.prod + 1).sum) (hbig : N + 5 ≤ 2 ^ 52) (variance dbg : Bool)
    (pow05 : Fl rnd64 → Fl rnd64) :
    ∃ E r, (do
        let E ← make (Fl rnd64) dbg roi periodic variance
        forM images E fun E a => match a.2 with
          | none => mean dbg E (double a.1)
          | some m => meanMask dbg E (double a.1) m) = ok E ∧ result pow05 E = ok r ∧ r.shape = roi ∧
      ∀ i, InBox roi i →
        |(val r i).val - arithmeticMean data| ≤ (N + 5 : ℕ) / 2 ^ 52 * arithmeticMean (data.map abs) := by
  have himg : images ≠ [] := by
    rintro rfl
    exact hne hdata
  have h0 : 0 ∉ roi := fun h => absurd (h1 0 h) (by decide)
  obtain ⟨E1, r1, v1, a1, a2, -, a3, -, a4⟩ := C41_mean (K := ℚ) hroi h1 himg
    (fun a ha m hm => ⟨(hmask a ha m hm).shape, (hmask a ha m hm).isMask⟩) periodic variance dbg id
  obtain ⟨E2, r2, v2, b1, b2, -, b3, -, b4⟩ := C41_mean (K := ℚ) (images := images.map fun a => (a.1.map abs, a.2)) hroi h1
    (by simpa using himg) (by
      intro a ha m hm
      obtain ⟨b, hb, rfl⟩ := List.mem_map.1 ha
      exact ⟨(hmask b hb m hm).shape, (hmask b hb m hm).isMask⟩) periodic variance dbg id
  obtain ⟨E, E', E'', c1, c2, c3, -, r, r', r'', d1, d2, d3, d4, d5⟩ := C88_history (periodic := periodic)
    (variance := variance) (junk := 0) (fuel := 0) (l := images.map fun a => .mean a.1 a.2) hroi h0 (Or.inl rfl) (by
      intro q hq
      obtain ⟨a, ha, rfl⟩ := List.mem_map.1 hq
      exact ⟨⟨h1, fun m hm => ⟨(hmask a ha m hm).shape, (hmask a ha m hm).isMask⟩⟩, rfl,
        fun m hm => (hmask a ha m hm).bits⟩) (by simpa using himg) (N := N)
    (by rw [hN, List.map_map]; rfl) hbig pow05 dbg
  have hq : ∀ (l : List (Nd ℚ × Option (Nd Int))) (E : Ensemble ℚ),
      forM (l.map fun a => Realisation.mean a.1 a.2) E (fun E r => r.call (0 : ℚ) 0 dbg E) = forM l E (addMean dbg) := by
    intro l
    induction l with
    | nil => intro E; rfl
    | cons a l ih =>
      intro E
      have : (Realisation.mean a.1 a.2).call (0 : ℚ) 0 dbg E = addMean dbg E a := by
        obtain ⟨f, m⟩ := a
        cases m <;> rfl
      rw [List.map_cons, forM, forM, this]
      congr 1
      funext E
      exact ih E
  have hf : ∀ (l : List (Nd ℚ × Option (Nd Int))) (E : Ensemble (Fl rnd64)),
      forM ((l.map fun a => Realisation.mean a.1 a.2).map Realisation.double) E (fun E r => r.call (0 : ℚ) 0 dbg E) =
      forM l E fun E a => match a.2 with
        | none => mean dbg E (double a.1)
        | some m => meanMask dbg E (double a.1) m := by
    intro l
    induction l with
    | nil => intro E; rfl
    | cons a l ih =>
      intro E
      have : (Realisation.mean a.1 a.2).double.call (0 : ℚ) 0 dbg E = (match a.2 with
          | none => mean dbg E (double a.1)
          | some m => meanMask dbg E (double a.1) m) := by
        obtain ⟨f, m⟩ := a
        cases m <;> rfl
      rw [List.map_cons, List.map_cons, forM, forM, this]
      congr 1
      funext E
      exact ih E
  unfold history at c1 c2 c3
  have c1' : (do
        let E ← make (Fl rnd64) dbg roi periodic variance
        forM images E fun E a => match a.2 with
          | none => mean dbg E (double a.1)
          | some m => meanMask dbg E (double a.1) m) = ok E := by
    rw [← c1]
    congr 1
    funext E
    exact (hf _ _).symm
  have c2' : (do
        let E ← make ℚ dbg roi periodic variance
        forM images E (addMean dbg)) = ok E' := by
    rw [← c2]
    congr 1
    funext E
    exact (hq _ _).symm
  have c3' : (do
        let E ← make ℚ dbg roi periodic variance
        forM (images.map fun a => (a.1.map abs, a.2)) E (addMean dbg)) = ok E'' := by
    rw [← c3]
    congr 1
    funext E
    rw [← hq, List.map_map, List.map_map]
    rfl
  rw [a1] at c2'
  rw [b1] at c3'
  cases c2'
  cases c3'
  rw [a2] at d2
  rw [b2] at d3
  cases d2
  cases d3
  have hd : ((images.map fun a => (a.1.map abs, a.2)).flatMap fun a => unmaskedValues a.1 a.2) = data.map abs := by
    rw [hdata, List.flatMap_map, List.map_flatMap]
    congr 1
    funext a
    obtain ⟨f, m⟩ := a
    cases m <;> simp only [unmaskedValues, List.map_map] <;> rfl
  refine ⟨E, r, c1', d1, d4, fun i hi => ?_⟩
  obtain ⟨v, e1, e2⟩ := d5 i
  have f1 := (a4 i hi).1
  have f2 := (b4 i hi).1
  simp only [← hdata] at f1
  simp only [hd] at f2
  rw [f1 hne, f2 (by simpa using hne)] at e2
  rw [e1, if_neg (by decide)]
  exact e2

/-! ### The hypotheses are met -/

/-- An image of fractions. -/
def thirds : Nd ℚ := ⟨[4], fun k => [1 / 3, -2 / 7, 10 ^ 30, 5].getD k 0⟩

example : Legal true thirds.shape [3] ∧ Legal false thirds.shape [5] ∧
    BitMask thirds.shape (ofInts Int [4] [0, 1, 0, 0]) ∧ BitMask thirds.shape (noMask thirds) ∧
    thirds.shape.prod + 5 ≤ 2 ^ 50 :=
  ⟨⟨by decide, by decide, rfl, fun _ => .cons (by decide) .nil⟩, ⟨by decide, by decide, rfl, fun h => by cases h⟩,
    BitImage.bitMask (shape := [4]) ⟨rfl, by decide⟩, bitMask_none _, by decide⟩

/-- The weights `1 / 3`, `2`, `0`, `10 ^ 30`. -/
example : ∀ x, 0 ≤ (⟨[4], fun k => [1 / 3, 2, 0, 10 ^ 30].getD k 0⟩ : Nd ℚ).get x := by
  rintro (_ | _ | _ | _ | x)
  all_goals simp

/-- A history of two images, one with a mask. -/
example : ∀ r ∈ [Realisation.S2 thirds thirds none,
      .S2 thirds thirds (some (ofInts Int [4] [0, 1, 0, 0], ofInts Int [4] [0, 0, 0, 1]))],
    r.Legal 0 true [3] ∧ r.stat = .S2 ∧ r.BitMasks := by
  have hL : Legal true [4] [3] := ⟨by decide, by decide, rfl, fun _ => .cons (by decide) .nil⟩
  have hb : ∀ l : List Int, l.length = 4 → (∀ v ∈ l, v = 0 ∨ v = 1) → BitMask [4] (ofInts Int [4] l) :=
    fun l h1 h2 => BitImage.bitMask (shape := [4]) ⟨h1, h2⟩
  intro r hr
  simp only [List.mem_cons, List.not_mem_nil, or_false] at hr
  rcases hr with rfl | rfl
  · exact ⟨⟨hL, rfl, fun m hm => by cases hm⟩, rfl, fun m hm => by cases hm⟩
  · refine ⟨⟨hL, rfl, fun m hm => ?_⟩, rfl, fun m hm => ?_⟩
    · cases hm
      exact ⟨⟨rfl, (hb _ rfl (by decide)).isMask⟩, ⟨rfl, (hb _ rfl (by decide)).isMask⟩⟩
    · cases hm
      exact (hb _ rfl (by decide)).bits

/-- The mean of the fractions is not what exact arithmetic gives: the bound is of use. -/
example : ((do
      let E ← make (Fl rnd64) false [1] true true
      let E ← mean false E (double ⟨[3], fun k => [1 / 3, 1 / 3, 1 / 3].getD k 0⟩)
      let r ← result id E
      pure (decide ((val r [0]).val = 1 / 3))) : Outcome Bool) = ok false := by decide +kernel

end Verif.Props
