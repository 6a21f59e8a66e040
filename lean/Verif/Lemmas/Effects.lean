import Verif.Lemmas.Measures

/-! # The effect of a call of S2, C2, W2 or heightheight, in terms of pixels of the image -/

set_option linter.unusedSectionVars false

namespace Verif.Ens

open Verif Outcome Spec Cluster Nd

variable {K : Type} [Field K] [LinearOrder K] [IsStrictOrderedRing K] {α : Type}

/-- The elements of the accumulators at an index. -/
def Delta.at (δ : Delta K) (k : Nat) : K × K × K := (δ.1 k, δ.2.1 k, δ.2.2 k)

/-- A measure that, on every legal ensemble, sets the statistic to `st` and adds `φ d` to the
accumulators at displacement `d`. -/
def Effect (roi : List Nat) (periodic variance : Bool) (st : Stat)
    (call : Bool → Ensemble K → Outcome (Ensemble K)) (φ : List Int → K × K × K) : Prop :=
  ∃ δ : Delta K,
    (∀ dbg E, Good roi periodic variance E → (E.stat = st ∨ E.stat = .unset) →
      call dbg E = ok ({ E with stat := st }.plus δ)) ∧
    ∀ i, InBox roi i → δ.at (flat roi i).toNat = φ (displacement roi i)

theorem Delta.at_add (δ δ' : Delta K) (k : Nat) : (δ + δ').at k = δ.at k + δ'.at k := rfl

theorem Delta.at_sum (l : List (Delta K)) (k : Nat) : l.sum.at k = (l.map fun δ => δ.at k).sum := by
  induction l with
  | nil => rfl
  | cons a l ih => simp [Delta.at_add, ih]

theorem Agree.at {N : Nat} {δ δ' : Delta K} (h : Agree N δ δ') {k : Nat} (hk : k < N) :
    δ.at k = δ'.at k := by
  obtain ⟨a, b, c⟩ := h k hk
  simp [Delta.at, a, b, c]

theorem flat_lt {s : List Nat} {i : List Int} (h : InBox s i) : (flat s i).toNat < s.prod := by
  have r := flat_range h
  omega

theorem inbox_length {s : List Nat} {i : List Int} (h : InBox s i) : i.length = s.length :=
  (List.Forall₂.length_eq h).symm

theorem effect_of_bodies {roi N : List Nat} {periodic variance : Bool} {st : Stat}
    {call : Bool → Ensemble K → Outcome (Ensemble K)} {c : List Int → Delta K}
    {φ : List Int → List Int → K × K × K}
    (hr : roi.length ≤ 3) (hN : N.length = roi.length)
    {body : Ensemble K → List Int → Outcome (Ensemble K)} {loop : List (List Int)}
    (hcall : ∀ dbg E, Good roi periodic variance E → (E.stat = st ∨ E.stat = .unset) →
      call dbg E = forM loop { E with stat := st } body)
    (hloop : loop = (pixels (shape3 N)).map fun x => plus x (ctr (shape3 roi)))
    (hbody : ∀ x, InBox (shape3 N) x →
      Adds (shape3 roi).prod (fresh K roi periodic variance st) body (plus x (ctr (shape3 roi))) (c x))
    (hc : ∀ x, InBox N x → ∀ i, InBox roi i →
      (c (raise x)).at (flat roi i).toNat = φ x (displacement roi i)) :
    Effect roi periodic variance st call fun d => ((pixels N).map fun x => φ x d).sum := by
  have h1 : ∀ y ∈ loop, ∃ x, InBox (shape3 N) x ∧ y = plus x (ctr (shape3 roi)) := by
    intro y hy
    rw [hloop, List.mem_map] at hy
    obtain ⟨x, hx, rfl⟩ := hy
    exact ⟨x, mem_pixels.1 hx, rfl⟩
  -- the sum over the visited positions
  have h2 : ∃ δ, (∀ δ0, forM ((pixels (shape3 N)).map fun x => plus x (ctr (shape3 roi)))
      ((fresh K roi periodic variance st).plus δ0) body =
      ok ((fresh K roi periodic variance st).plus (δ0 + δ))) ∧
      Agree (shape3 roi).prod δ ((pixels (shape3 N)).map c).sum := by
    have h3 : ∀ l : List (List Int), (∀ x ∈ l, InBox (shape3 N) x) →
        ∃ δ, (∀ δ0, forM (l.map fun x => plus x (ctr (shape3 roi)))
          ((fresh K roi periodic variance st).plus δ0) body =
          ok ((fresh K roi periodic variance st).plus (δ0 + δ))) ∧
          Agree (shape3 roi).prod δ (l.map c).sum := by
      intro l
      induction l with
      | nil => exact fun _ => ⟨0, fun δ0 => by simp [forM], fun k _ => by simp⟩
      | cons x l ih =>
        intro h
        obtain ⟨δ, a1, a2⟩ := hbody x (h x (by simp))
        obtain ⟨δ', b1, b2⟩ := ih fun y hy => h y (List.mem_cons_of_mem _ hy)
        refine ⟨δ + δ', fun δ0 => ?_, ?_⟩
        · simp only [List.map_cons, forM, a1, Outcome.bind, b1, add_assoc]
        · simpa using a2.add b2
    exact h3 _ fun x hx => mem_pixels.1 hx
  obtain ⟨δ, a1, a2⟩ := h2
  refine ⟨δ, fun dbg E hE hs => ?_, fun i hi => ?_⟩
  · rw [hcall dbg E hE hs, hloop]
    have e := (hE.stat st).eq
    rw [e]
    simp only
    rw [a1, plus_plus]
  · rw [a2.at (by rw [shape3_prod hr]; exact flat_lt hi), Delta.at_sum, pixels_raise (by omega),
      List.map_map, List.map_map]
    congr 1
    refine List.map_congr_left fun x hx => ?_
    exact hc x (mem_pixels.1 hx) i hi

/-- The extended image at any position. -/
def ext (periodic : Bool) (a : Nd K) (y : List Int) : K :=
  if periodic then val a (wrap a.shape y) else if y ∈ pixels a.shape then val a y else 0

/-- The mask as it is used at any position (not wrapped if periodic). -/
def maskAt (periodic : Bool) (m : Nd Int) (y : List Int) : Int :=
  if y ∈ pixels m.shape then val m y else if periodic then 0 else 1

theorem ext_eq {periodic : Bool} {a : Nd K} {y : List Int} (h : a.shape.length ≤ 3)
    (e : y.length = a.shape.length) (h0 : 0 ∉ a.shape) :
    a.atleast3d.extend (padMode periodic) 0 (raise y) = ext periodic a y := by
  rw [extend_atleast3d h e h0]
  cases periodic <;> rfl

theorem maskAt_eq {periodic : Bool} {m : Nd Int} {y : List Int} (h : m.shape.length ≤ 3)
    (e : y.length = m.shape.length) (h0 : 0 ∉ m.shape) :
    m.atleast3d.extend .constant (maskValue periodic) (raise y) = maskAt periodic m y := by
  rw [extend_atleast3d h e h0]
  cases periodic <;> rfl

theorem _root_.Verif.Spec.IsMask.binary {m : Nd Int} (h : IsMask m) : Ens.binary m = true := by
  simp only [Ens.binary, Nd.all, Nd.toList, List.all_eq_true, List.mem_map, List.mem_range]
  rintro _ ⟨k, hk, rfl⟩
  rcases h k hk with h | h <;> simp [h]

theorem unravel_shape3 {roi : List Nat} (hr : roi.length ≤ 3) {i : List Int} (hi : InBox roi i) :
    unravel (shape3 roi) (flat roi i).toNat = raise i := by
  rw [← flat_raise hr (inbox_length hi), unravel_flat ((inbox_raise hr (inbox_length hi)).2 hi)]

section effects

variable {roi : List Nat} {periodic variance : Bool} {f g : Nd K} {fmask gmask : Nd Int}

/-- Moving from a pixel by the displacement of an index, raised to three dimensions. -/
theorem move_index (hr : roi.length ≤ 3) {N : List Nat} (hN : N.length = roi.length) {x i : List Int}
    (hx : InBox N x) (hi : InBox roi i) :
    move (raise x) (displacement (shape3 roi) (unravel (shape3 roi) (flat roi i).toNat)) =
      raise (move x (displacement roi i)) ∧ (move x (displacement roi i)).length = N.length := by
  have e1 := inbox_length hx
  have e2 := inbox_length hi
  have e3 := displacement_length e2
  rw [unravel_shape3 hr hi, displacement_raise hr e2, move_raise (by omega) (by omega)]
  exact ⟨rfl, by rw [move_length (by omega), e1]⟩

theorem S2_effect (hr : roi.length ≤ 3) (h0 : 0 ∉ roi) (hf : f.shape.length = roi.length)
    (hg : g.shape = f.shape) (hfm : fmask.shape = f.shape) (hgm : gmask.shape = f.shape)
    (bf : IsMask fmask) (bg : IsMask gmask) (hfit : Fits periodic f.shape roi) :
    Effect roi periodic variance .S2 (fun dbg E => S2 dbg E f g fmask gmask) fun d =>
      ((pixels f.shape).map fun x =>
        let w : K := if val fmask x = 0 then 1 - ((maskAt periodic gmask (move x d) : Int) : K) else 0
        (val f x * ext periodic g (move x d) * w, (0 : K), w)).sum := by
  have hp : padMode periodic = .periodic → periodic = true := by cases periodic <;> simp [padMode]
  obtain ⟨F, eF, pF⟩ := padded hr h0 hf (padMode periodic) 0 fun h => hfit (hp h)
  obtain ⟨G, eG, pG⟩ := padded hr h0 (hg ▸ hf) (padMode periodic) 0 fun h => hg ▸ hfit (hp h)
  obtain ⟨Fm, eFm, pFm⟩ := padded hr h0 (a := fmask) (hfm ▸ hf) .constant (maskValue periodic) (by simp)
  obtain ⟨Gm, eGm, pGm⟩ := padded hr h0 (a := gmask) (hgm ▸ hf) .constant (maskValue periodic) (by simp)
  refine effect_of_bodies (N := f.shape) hr hf (body := bodyS2 (padWidth (shape3 roi)) F G Fm Gm)
    (loop := pixelLoop F.shape (padWidth (shape3 roi))) ?_ pF.loop
    (fun x hx => bodyS2_adds rfl rfl pF pG pFm pGm (congrArg shape3 hg) (congrArg shape3 hfm)
      (congrArg shape3 hgm) hx) ?_
  · intro dbg E hE hs
    simp only [S2, gassert, hg, hfm, hgm, hf, hE.shapeOrig, bf.binary, bg.binary, hs, decide_true,
      Bool.not_true, Bool.and_false, Bool.false_eq_true, if_false, ok_bind, hE.pad, hE.periodic,
      eF, eG, eFm, eGm]
  · intro x hx i hi
    obtain ⟨m1, m2⟩ := move_index hr hf hx hi
    have h0' := inbox_pos hx
    have e1 := inbox_length hx
    have v1 : val f.atleast3d (raise x) = val f x := val_atleast3d (by omega) e1
    have v2 : val fmask.atleast3d (raise x) = val fmask x :=
      val_atleast3d (by rw [hfm]; omega) (by rw [hfm]; exact e1)
    have v3 := ext_eq (periodic := periodic) (a := g) (y := move x (displacement roi i))
      (by rw [hg]; omega) (by rw [hg]; exact m2) (by rw [hg]; exact h0')
    have v4 := maskAt_eq (periodic := periodic) (m := gmask) (y := move x (displacement roi i))
      (by rw [hgm]; omega) (by rw [hgm]; exact m2) (by rw [hgm]; exact h0')
    simp only [Delta.at, m1, v1, v2, v3, v4, Pi.zero_apply]
    split <;> simp

theorem C2_effect (hr : roi.length ≤ 3) (h0 : 0 ∉ roi) (hf : f.shape.length = roi.length)
    (hg : g.shape = f.shape) (hfm : fmask.shape = f.shape) (hgm : gmask.shape = f.shape)
    (bf : IsMask fmask) (bg : IsMask gmask) (hfit : Fits periodic f.shape roi) :
    Effect roi periodic variance .C2 (fun dbg E => C2 dbg E f g fmask gmask) fun d =>
      ((pixels f.shape).map fun x =>
        let w : K := if val fmask x = 0 then 1 - ((maskAt periodic gmask (move x d) : Int) : K) else 0
        ((if val f x ≠ 0 ∧ val f x = ext periodic g (move x d) then w else 0), (0 : K), w)).sum := by
  have hp : padMode periodic = .periodic → periodic = true := by cases periodic <;> simp [padMode]
  obtain ⟨F, eF, pF⟩ := padded hr h0 hf (padMode periodic) 0 fun h => hfit (hp h)
  obtain ⟨G, eG, pG⟩ := padded hr h0 (hg ▸ hf) (padMode periodic) 0 fun h => hg ▸ hfit (hp h)
  obtain ⟨Fm, eFm, pFm⟩ := padded hr h0 (a := fmask) (hfm ▸ hf) .constant (maskValue periodic) (by simp)
  obtain ⟨Gm, eGm, pGm⟩ := padded hr h0 (a := gmask) (hgm ▸ hf) .constant (maskValue periodic) (by simp)
  refine effect_of_bodies (N := f.shape) hr hf (body := bodyC2 (padWidth (shape3 roi)) F G Fm Gm)
    (loop := pixelLoop F.shape (padWidth (shape3 roi))) ?_ pF.loop
    (fun x hx => bodyC2_adds rfl rfl pF pG pFm pGm (congrArg shape3 hg) (congrArg shape3 hfm)
      (congrArg shape3 hgm) hx) ?_
  · intro dbg E hE hs
    simp only [C2, gassert, hg, hfm, hgm, hf, hE.shapeOrig, bf.binary, bg.binary, hs, decide_true,
      Bool.not_true, Bool.and_false, Bool.false_eq_true, if_false, ok_bind, hE.pad, hE.periodic,
      eF, eG, eFm, eGm]
  · intro x hx i hi
    obtain ⟨m1, m2⟩ := move_index hr hf hx hi
    have h0' := inbox_pos hx
    have e1 := inbox_length hx
    have v1 : val f.atleast3d (raise x) = val f x := val_atleast3d (by omega) e1
    have v2 : val fmask.atleast3d (raise x) = val fmask x :=
      val_atleast3d (by rw [hfm]; omega) (by rw [hfm]; exact e1)
    have v3 := ext_eq (periodic := periodic) (a := g) (y := move x (displacement roi i))
      (by rw [hg]; omega) (by rw [hg]; exact m2) (by rw [hg]; exact h0')
    have v4 := maskAt_eq (periodic := periodic) (m := gmask) (y := move x (displacement roi i))
      (by rw [hgm]; omega) (by rw [hgm]; exact m2) (by rw [hgm]; exact h0')
    simp only [Delta.at, m1, v1, v2, v3, v4, Pi.zero_apply]
    by_cases hv : val fmask x = 0 <;> simp [hv]

theorem W2_effect (hr : roi.length ≤ 3) (h0 : 0 ∉ roi) (hf : f.shape.length = roi.length)
    (hg : g.shape = f.shape) (hgm : gmask.shape = f.shape)
    (bg : IsMask gmask) (hfit : Fits periodic f.shape roi) :
    Effect roi periodic variance .W2 (fun dbg E => W2 dbg E f g gmask) fun d =>
      ((pixels f.shape).map fun x =>
        let w : K := 1 - ((maskAt periodic gmask (move x d) : Int) : K)
        (val f x * ext periodic g (move x d) * w, (0 : K), val f x * w)).sum := by
  have hp : padMode periodic = .periodic → periodic = true := by cases periodic <;> simp [padMode]
  obtain ⟨F, eF, pF⟩ := padded hr h0 hf (padMode periodic) 0 fun h => hfit (hp h)
  obtain ⟨G, eG, pG⟩ := padded hr h0 (hg ▸ hf) (padMode periodic) 0 fun h => hg ▸ hfit (hp h)
  obtain ⟨Gm, eGm, pGm⟩ := padded hr h0 (a := gmask) (hgm ▸ hf) .constant (maskValue periodic) (by simp)
  refine effect_of_bodies (N := f.shape) hr hf (body := bodyW2 (padWidth (shape3 roi)) F G Gm)
    (loop := pixelLoop F.shape (padWidth (shape3 roi))) ?_ pF.loop
    (fun x hx => bodyW2_adds rfl rfl pF pG pGm (congrArg shape3 hg) (congrArg shape3 hgm) hx) ?_
  · intro dbg E hE hs
    simp only [W2, gassert, hg, hgm, hf, hE.shapeOrig, bg.binary, hs, decide_true,
      Bool.not_true, Bool.and_false, Bool.false_eq_true, if_false, ok_bind, hE.pad, hE.periodic,
      eF, eG, eGm]
  · intro x hx i hi
    obtain ⟨m1, m2⟩ := move_index hr hf hx hi
    have h0' := inbox_pos hx
    have e1 := inbox_length hx
    have v1 : val f.atleast3d (raise x) = val f x := val_atleast3d (by omega) e1
    have v3 := ext_eq (periodic := periodic) (a := g) (y := move x (displacement roi i))
      (by rw [hg]; omega) (by rw [hg]; exact m2) (by rw [hg]; exact h0')
    have v4 := maskAt_eq (periodic := periodic) (m := gmask) (y := move x (displacement roi i))
      (by rw [hgm]; omega) (by rw [hgm]; exact m2) (by rw [hgm]; exact h0')
    simp only [Delta.at, m1, v1, v3, v4, Pi.zero_apply]

theorem HH_effect (hr : roi.length ≤ 3) (h0 : 0 ∉ roi) (hf : f.shape.length = roi.length)
    (hfm : fmask.shape = f.shape) (bf : IsMask fmask) (hfit : Fits periodic f.shape roi) :
    Effect roi periodic variance .heightheight (fun dbg E => heightheight dbg E f fmask) fun d =>
      ((pixels f.shape).map fun x =>
        let w : K := if val fmask x = 0 then 1 - ((maskAt periodic fmask (move x d) : Int) : K) else 0
        ((ext periodic f (move x d) - val f x) ^ 2 * w,
          (if variance then (ext periodic f (move x d) - val f x) ^ 4 * w else 0), w)).sum := by
  have hp : padMode periodic = .periodic → periodic = true := by cases periodic <;> simp [padMode]
  obtain ⟨F, eF, pF⟩ := padded hr h0 hf (padMode periodic) 0 fun h => hfit (hp h)
  obtain ⟨Fm, eFm, pFm⟩ := padded hr h0 (a := fmask) (hfm ▸ hf) .constant (maskValue periodic) (by simp)
  refine effect_of_bodies (N := f.shape) hr hf (body := bodyHH (padWidth (shape3 roi)) F Fm)
    (loop := pixelLoop F.shape (padWidth (shape3 roi))) ?_ pF.loop
    (fun x hx => bodyHH_adds rfl rfl rfl pF pFm (congrArg shape3 hfm) hx) ?_
  · intro dbg E hE hs
    simp only [heightheight, gassert, hfm, hf, hE.shapeOrig, bf.binary, hs, decide_true,
      Bool.not_true, Bool.and_false, Bool.false_eq_true, if_false, ok_bind, hE.pad, hE.periodic,
      eF, eFm]
  · intro x hx i hi
    obtain ⟨m1, m2⟩ := move_index hr hf hx hi
    have h0' := inbox_pos hx
    have e1 := inbox_length hx
    have v1 : val f.atleast3d (raise x) = val f x := val_atleast3d (by omega) e1
    have v2 : val fmask.atleast3d (raise x) = val fmask x :=
      val_atleast3d (by rw [hfm]; omega) (by rw [hfm]; exact e1)
    have v3 := ext_eq (periodic := periodic) (a := f) (y := move x (displacement roi i))
      (by omega) m2 h0'
    have v4 := maskAt_eq (periodic := periodic) (m := fmask) (y := move x (displacement roi i))
      (by rw [hfm]; omega) (by rw [hfm]; exact m2) (by rw [hfm]; exact h0')
    have e2 : (fresh K roi periodic variance .heightheight).variance = variance := rfl
    simp only [Delta.at, m1, v1, v2, v3, v4, e2]
    by_cases hv : val fmask x = 0 <;> simp [hv]

end effects

end Verif.Ens
