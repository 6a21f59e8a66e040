import Verif.Lemmas.Pairs
import Mathlib.Tactic.Ring
import Mathlib.Tactic.FieldSimp
import Mathlib.Tactic.Linarith

/-! # Sequences of calls; mean; distances -/

set_option linter.unusedSectionVars false

namespace Verif.Ens

open Verif Outcome Spec Cluster Nd

variable {K : Type} [Field K] [LinearOrder K] [IsStrictOrderedRing K]

/-- A sequence of calls of one statistic adds the sum of what the calls add. -/
theorem effects_run {σ : Type} {roi : List Nat} {periodic variance : Bool} {st : Stat}
    {call : σ → Bool → Ensemble K → Outcome (Ensemble K)} {φ : σ → List Int → K × K × K} :
    ∀ {l : List σ}, (∀ r ∈ l, Effect roi periodic variance st (call r) (φ r)) →
    ∃ δ : Delta K, (∀ dbg E, Good roi periodic variance E → (E.stat = st ∨ E.stat = .unset) →
        forM l E (fun E r => call r dbg E) =
          ok ({ E with stat := if l = [] then E.stat else st }.plus δ)) ∧
      ∀ i, InBox roi i →
        δ.at (flat roi i).toNat = (l.map fun r => φ r (displacement roi i)).sum
  | [], _ => ⟨0, fun dbg E hE hs => by simp [forM, plus_zero], fun i hi => rfl⟩
  | r :: l, h => by
    obtain ⟨δ, h1, h2⟩ := h r (by simp)
    obtain ⟨δ', h3, h4⟩ := effects_run fun r hr => h r (List.mem_cons_of_mem _ hr)
    refine ⟨δ + δ', fun dbg E hE hs => ?_, fun i hi => ?_⟩
    · simp only [forM, h1 dbg E hE hs, Outcome.bind]
      rw [h3 dbg _ ((hE.stat st).plus δ) (Or.inl rfl)]
      have : ({ ({ E with stat := st }.plus δ) with
          stat := if l = [] then ({ E with stat := st }.plus δ).stat else st } : Ensemble K) =
          { E with stat := st }.plus δ := by
        by_cases hl : l = [] <;> simp [hl, Ensemble.plus]
      rw [this, plus_plus]
      simp
    · rw [Delta.at_add, h2 i hi, h4 i hi, List.map_cons, List.sum_cons]

/-! ### mean -/

/-- The offsets of the pixels are the offsets of the storage. -/
theorem pixels_flat (s : List Nat) :
    ((pixels s).map fun x => (flat s x).toNat).Perm (List.range s.prod) := by
  refine (List.perm_ext_iff_of_nodup ?_ List.nodup_range).2 fun k => ?_
  · refine List.Nodup.map_on ?_ (pixels_nodup s)
    intro x hx y hy e
    have hx := mem_pixels.1 hx
    have hy := mem_pixels.1 hy
    have r1 := flat_range hx
    have r2 := flat_range hy
    exact flat_inj hx hy (by omega)
  · rw [List.mem_map, List.mem_range]
    constructor
    · rintro ⟨x, hx, rfl⟩
      exact flat_lt (mem_pixels.1 hx)
    · intro hk
      exact ⟨unravel s k, mem_pixels.2 (unravel_inbox hk).1, (unravel_inbox hk).2⟩

theorem sum_get {s : List Nat} (φ : Nat → K) :
    ((List.range (prodShape s)).map φ).sum = ((pixels s).map fun x => φ (flat s x).toNat).sum := by
  rw [prodShape_eq]
  have := ((pixels_flat s).map φ).sum_eq
  rw [List.map_map] at this
  exact this.symm

theorem addTo0_ok {a : Nd K} (h : a.shape = [1, 1, 1]) (v : K) :
    addTo0 a v = ok ⟨[1, 1, 1], fun k => if k = 0 then a.get k + v else a.get k⟩ := by
  have hi : InBox a.shape [0, 0, 0] := by rw [h]; simp [InBox]
  have e : ravelIndex [0, 0, 0] [1, 1, 1] = 0 := rfl
  rw [addTo0, Nd.addAt, if_pos (valid_of_inbox hi), h]
  rfl

/-- The only index of a ROI of one pixel. -/
theorem flat_one {roi : List Nat} (hr : roi.length ≤ 3) (h1 : shape3 roi = [1, 1, 1]) {i : List Int}
    (hi : InBox roi i) : (flat roi i).toNat = 0 := by
  have := flat_lt hi
  rw [← shape3_prod hr, h1] at this
  simpa using this

theorem mean_effect {roi : List Nat} {periodic variance : Bool} (hr : roi.length ≤ 3)
    (h1 : shape3 roi = [1, 1, 1]) (f : Nd K) :
    Effect roi periodic variance .mean (fun dbg E => mean dbg E f) fun _ =>
      (((pixels f.shape).map (val f)).sum, ((pixels f.shape).map fun x => val f x ^ 2).sum,
        (f.shape.prod : K)) := by
  refine ⟨(fun k => if k = 0 then f.sum else 0, fun k => if k = 0 then (f.map fun x => x ^ 2).sum else 0,
    fun k => if k = 0 then (f.size : K) else 0), fun dbg E hE hs => ?_, fun i hi => ?_⟩
  · simp only [mean, gassert, hE.shape, h1, hs, decide_true, Bool.not_true, Bool.and_false,
      Bool.false_eq_true, if_false, ok_bind, addTo0_ok (hE.first.trans h1),
      addTo0_ok (hE.second.trans h1), addTo0_ok (hE.norm.trans h1), pure_eq]
    simp only [Ensemble.plus, hE.first, hE.second, hE.norm, h1]
    congr 3
    all_goals (funext k; simp only [Pi.add_apply]; split <;> simp)
  · simp only [Delta.at, flat_one hr h1 hi, if_true]
    refine Prod.ext ?_ (Prod.ext ?_ ?_)
    · exact sum_get _
    · exact sum_get (s := f.shape) fun k => f.get k ^ 2
    · simp [Nd.size, prodShape_eq]

theorem meanMask_effect {roi : List Nat} {periodic variance : Bool} (hr : roi.length ≤ 3)
    (h1 : shape3 roi = [1, 1, 1]) {f : Nd K} {m : Nd Int} (hm : m.shape = f.shape) (bm : IsMask m) :
    Effect roi periodic variance .mean (fun dbg E => meanMask dbg E f m) fun _ =>
      (((pixels f.shape).map fun x => if val m x = 0 then val f x else 0).sum,
        ((pixels f.shape).map fun x => if val m x = 0 then val f x ^ 2 else 0).sum,
        ((pixels f.shape).map fun x => if val m x = 0 then (1 : K) else 0).sum) := by
  have e1 : ∀ φ : Int → K → K, map₂ φ m f = ok ⟨m.shape, fun k => φ (m.get k) (f.get k)⟩ := fun φ =>
    if_pos hm
  refine ⟨(fun k => if k = 0 then (Nd.mk m.shape fun k => if m.get k = 0 then f.get k else 0).sum else 0,
    fun k => if k = 0 then (Nd.mk m.shape fun k => if m.get k = 0 then f.get k ^ 2 else 0).sum else 0,
    fun k => if k = 0 then (m.map fun m => ((1 - m : Int) : K)).sum else 0), fun dbg E hE hs => ?_,
    fun i hi => ?_⟩
  · simp only [meanMask, gassert, hE.shape, h1, hm, bm.binary, hs, decide_true, Bool.not_true, Bool.and_false,
      Bool.false_eq_true, if_false, ok_bind, e1, addTo0_ok (hE.first.trans h1),
      addTo0_ok (hE.second.trans h1), addTo0_ok (hE.norm.trans h1), pure_eq]
    simp only [Ensemble.plus, hE.first, hE.second, hE.norm, h1]
    congr 3
    all_goals (funext k; simp only [Pi.add_apply]; split <;> simp)
  · simp only [Delta.at, flat_one hr h1 hi, if_true]
    refine Prod.ext ?_ (Prod.ext ?_ ?_)
    · refine (sum_get (s := m.shape) fun k => if m.get k = 0 then f.get k else 0).trans ?_
      rw [hm]
      simp only [val, hm]
    · refine (sum_get (s := m.shape) fun k => if m.get k = 0 then f.get k ^ 2 else 0).trans ?_
      rw [hm]
      simp only [val, hm]
    · refine (sum_get (s := m.shape) fun k => ((1 - m.get k : Int) : K)).trans ?_
      rw [hm]
      congr 1
      refine List.map_congr_left fun x hx => ?_
      have hx := mem_pixels.1 hx
      have := bm.val (x := x) (by rw [hm]; exact hx)
      simp only [val, hm] at this ⊢
      rcases this with e | e <;> simp [e]

end Verif.Ens
