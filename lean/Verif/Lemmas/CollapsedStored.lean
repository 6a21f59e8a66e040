import Verif.Lemmas.Collapsed

/-! # Where W2c stores its values, for any region of interest -/

set_option linter.unusedSectionVars false

namespace Verif.Ens

open Verif Outcome Spec Cluster Nd

variable {K : Type} [Field K] [LinearOrder K] [IsStrictOrderedRing K]

/-- The offset at which the value of row `d` is stored. -/
def cell (R : List Nat) (d : List Int) : Int := ravelIndex (plus (originW2c (padWidth R)) d) R

/-- The offset is in the storage. -/
def Stored (R : List Nat) (d : List Int) : Prop := 0 ≤ cell R d ∧ cell R d < (R.prod : Nat)

instance (R : List Nat) (d : List Int) : Decidable (Stored R d) := by unfold Stored; infer_instance

/-- What one row of a path adds. -/
def cellBoth (R : List Nat) (v : K) (d : List Int) : Delta K :=
  (fun k => if k = (cell R d).toNat then v else 0, 0, fun k => if k = (cell R d).toNat then 1 else 0)

theorem addCell {E : Ensemble K} {R : List Nat} (hR : R.length = 3) (h1 : E.first.shape = R)
    (h3 : E.norm.shape = R) {d : List Int} (hd : d.length = R.length) (v : K) (δ0 : Delta K) :
    (do
      let norm ← (E.plus δ0).norm.addAt (plus (originW2c (padWidth R)) d) 1
      let first ← (E.plus δ0).first.addAt (plus (originW2c (padWidth R)) d) v
      pure { E.plus δ0 with norm := norm, first := first }) =
    if Stored R d then ok (E.plus (δ0 + cellBoth R v d)) else ub := by
  have hl : (plus (originW2c (padWidth R)) d).length = R.length := by
    obtain ⟨a, b, c, rfl⟩ := List.length_eq_three.1 hR
    simp [padWidth, originW2c, plus, hd]
  have e1 : (E.plus δ0).first.valid (plus (originW2c (padWidth R)) d) = decide (Stored R d) := by
    rw [Nd.valid, decide_eq_decide]
    simp only [Ensemble.plus, h1, hl, Stored, cell, Nd.size, true_and, prodShape_eq]
  have e3 : (E.plus δ0).norm.valid (plus (originW2c (padWidth R)) d) = decide (Stored R d) := by
    rw [Nd.valid, decide_eq_decide]
    simp only [Ensemble.plus, h3, hl, Stored, cell, Nd.size, true_and, prodShape_eq]
  simp only [Nd.addAt, e1, e3]
  by_cases hs : Stored R d
  · simp only [hs, decide_true, if_true, ok_bind, pure_eq]
    simp only [Ensemble.plus, h1, h3, Prod.fst_add, Prod.snd_add, add_zero, cellBoth, cell]
    congr 3
    · funext k
      simp only [Pi.add_apply]
      split <;> simp_all [add_assoc]
    · funext k
      simp only [Pi.add_apply]
      split <;> simp_all [add_assoc]
  · simp only [hs, decide_false, Bool.false_eq_true, if_false]
    rfl

/-- What a walk along a path adds: row `j + 1` is stored at row `j`. -/
def cellDelta (R : List Nat) (f : Nd K) (fm : Nd Int) (mode : PadMode) (x : List Int)
    (l : List (List Int × List Int)) : Delta K :=
  (l.map fun ab => if fm.extend mode 0 (move x ab.2) = 0 then
    cellBoth R (f.extend mode 0 (move x ab.2)) ab.1 else 0).sum

/-- All that is stored by the walk is in the storage. -/
def AllStored (R : List Nat) (fm : Nd Int) (mode : PadMode) (x : List Int)
    (l : List (List Int × List Int)) : Prop :=
  ∀ ab ∈ l, fm.extend mode 0 (move x ab.2) = 0 → Stored R ab.1

open Classical in
theorem forM_if {σ : Type} {E : Ensemble K} {body : Ensemble K → σ → Outcome (Ensemble K)} {Q : σ → Prop}
    {c : σ → Delta K} : ∀ {l : List σ},
    (∀ x ∈ l, ∀ δ0, body (E.plus δ0) x = if Q x then ok (E.plus (δ0 + c x)) else ub) →
    ∀ δ0, forM l (E.plus δ0) body = if ∀ x ∈ l, Q x then ok (E.plus (δ0 + (l.map c).sum)) else ub
  | [], _, δ0 => by simp [forM]
  | x :: l, h, δ0 => by
    rw [forM, h x (by simp)]
    by_cases hx : Q x
    · rw [if_pos hx]
      show forM l _ body = _
      rw [forM_if fun y hy => h y (List.mem_cons_of_mem _ hy)]
      simp [hx, add_assoc]
    · rw [if_neg hx, if_neg fun hq => hx (hq x (by simp))]
      rfl

section

variable {R : List Nat} {f F : Nd K} {fm Fm cl Cl ce Ce : Nd Int} {mode : PadMode} {E : Ensemble K}
  {x : List Int}

open Classical in
theorem walkW2c_if (hE1 : E.first.shape = R) (hE3 : E.norm.shape = R) (hR : R.length = 3)
    (hF : Padded R f mode 0 F) (hFm : Padded R fm mode 0 Fm)
    (hCl : Padded R cl mode 0 Cl) (hx : InBox f.shape x) (hfm : fm.shape = f.shape)
    (hcl : cl.shape = f.shape) (label : Int) :
    ∀ {todo pre : List (List Int)} {a : List Int},
      (∀ d ∈ a :: todo, d.length = R.length ∧ InBox R (plus (ctr R) d)) →
      ∀ δ0, walkW2c (padWidth R) F Fm Cl label (plus x (ctr R)) (pre ++ a :: todo) todo (pre.length : Int)
        (E.plus δ0) = if AllStored R fm mode x ((a :: todo).zip todo) then
          ok (E.plus (δ0 + cellDelta R f fm mode x ((a :: todo).zip todo))) else ub
  | [], pre, a, _, δ0 => by simp [walkW2c, cellDelta, AllStored]
  | b :: todo, pre, a, h, δ0 => by
    obtain ⟨a1, a2⟩ := h a (by simp)
    obtain ⟨b1, b2⟩ := h b (by simp)
    have r1 := hCl.near (hcl.symm ▸ hx) b1 b2
    have r2 := hFm.near (hfm.symm ▸ hx) b1 b2
    have r3 := hF.near hx b1 b2
    have hq : ¬ (cl.extend mode 0 (move x b) ≠ label ∧ ((pre.length : Nat) : Int) < 0) := by omega
    have hg : (pre ++ a :: b :: todo)[((pre.length : Nat) : Int).toNat]? = some a := by simp
    have ih := walkW2c_if hE1 hE3 hR hF hFm hCl hx hfm hcl label (todo := todo) (pre := pre ++ [a])
      (a := b) (fun d hd => h d (List.mem_cons_of_mem _ hd))
    have e1 : pre ++ [a] ++ b :: todo = pre ++ a :: b :: todo := by simp
    have e2 : (((pre ++ [a]).length : Nat) : Int) = ((pre.length : Nat) : Int) + 1 := by simp
    rw [e1, e2] at ih
    have hz : (a :: b :: todo).zip (b :: todo) = (a, b) :: (b :: todo).zip todo := rfl
    have hall : AllStored R fm mode x ((a :: b :: todo).zip (b :: todo)) ↔
        (fm.extend mode 0 (move x b) = 0 → Stored R a) ∧ AllStored R fm mode x ((b :: todo).zip todo) := by
      rw [hz]
      simp only [AllStored, List.forall_mem_cons]
    rw [walkW2c, r1, ok_bind]
    simp only [if_neg hq, hall]
    rw [if_pos (by omega : (0 : Int) ≤ ((pre.length : Nat) : Int)), r2, ok_bind]
    by_cases hm : fm.extend mode 0 (move x b) = 0
    · rw [if_pos hm, hg]
      simp only
      have e3 := addCell hR hE1 hE3 a1 (f.extend mode 0 (move x b)) δ0
      rw [r3]
      simp only [ok_bind]
      rw [e3]
      by_cases hs : Stored R a
      · rw [if_pos hs, ok_bind, ih]
        simp only [hm, hs, true_and, imp_self]
        congr 1
        simp [cellDelta, hm, add_assoc]
      · rw [if_neg hs, if_neg (by simp [hm, hs])]
        rfl
    · rw [if_neg hm, pure_eq, ok_bind, ih]
      simp only [hm, false_imp_iff, true_and]
      congr 1
      simp [cellDelta, hm]

open Classical in
theorem bodyW2c_if (hE1 : E.first.shape = R) (hE3 : E.norm.shape = R) (hR : R.length = 3)
    (hF : Padded R f mode 0 F) (hFm : Padded R fm mode 0 Fm)
    (hCl : Padded R cl mode 0 Cl) (hCe : Padded R ce mode 0 Ce) (hx : InBox f.shape x)
    (hfm : fm.shape = f.shape) (hcl : cl.shape = f.shape) (hce : ce.shape = f.shape)
    {rows rest : List (List Int)} {z : List Int} (hz : rows = z :: rest) (hz0 : move x z = x)
    (hrows : ∀ d ∈ rows, d.length = R.length ∧ InBox R (plus (ctr R) d)) (δ0 : Delta K) :
    bodyW2c (padWidth R) F Fm Cl Ce rows (E.plus δ0) (plus x (ctr R)) =
      if IsCentre cl ce x → AllStored R fm mode x (rows.zip rows.tail) then
        ok (E.plus (δ0 + if IsCentre cl ce x then cellDelta R f fm mode x (rows.zip rows.tail) else 0))
      else ub := by
  have r0 := hCe.read (x := x) (hce.symm ▸ hx)
  have r1 := hCl.read (x := x) (hcl.symm ▸ hx)
  rw [bodyW2c, r0, ok_bind]
  by_cases h0 : val ce x = 0
  · have : ¬ IsCentre cl ce x := fun h => h.1 h0
    rw [if_pos h0, pure_eq]
    simp [this]
  rw [if_neg h0, r1, ok_bind]
  by_cases h1 : val cl x = val ce x
  · have hc : IsCentre cl ce x := ⟨h0, h1⟩
    rw [if_neg (by simpa using h1)]
    simp only [hc, if_true, true_imp_iff]
    subst hz
    obtain ⟨z1, z2⟩ := hrows z (by simp)
    have r2 := hCl.near (hcl.symm ▸ hx) z1 z2
    have hext : cl.extend mode 0 (move x z) = val cl x := by
      have := hCl.read (x := x) (hcl.symm ▸ hx)
      have e : plus (plus x (ctr R)) z = plus x (ctr R) := by
        have e1 : plus (plus x (ctr R)) z = plus (plus x z) (ctr R) := by
          simp only [plus]
          clear * -
          induction x generalizing z R with
          | nil => simp
          | cons a x ih =>
            cases R with
            | nil => simp [ctr]
            | cons n R =>
              cases z with
              | nil => simp
              | cons b z =>
                have := ih (R := R) (z := z)
                simp only [ctr, List.map_cons, List.zipWith_cons_cons] at this ⊢
                rw [this]
                congr 1
                omega
        rw [e1]
        have e2 : plus x z = x := hz0
        rw [e2]
      rw [e, this, ok.injEq] at r2
      exact r2.symm
    rw [walkW2c, r2, ok_bind]
    simp only [hext, h1, ne_eq, not_true_eq_false, false_and, if_false]
    rw [if_neg (by omega : ¬ (0 : Int) ≤ -1), pure_eq, ok_bind]
    exact walkW2c_if hE1 hE3 hR hF hFm hCl hx hfm hcl _ (pre := []) hrows δ0
  · have : ¬ IsCentre cl ce x := fun h => h1 h.2
    rw [if_pos (by simpa using h1), pure_eq]
    simp [this]

open Classical in
theorem stampW2c_if (hE1 : E.first.shape = R) (hE3 : E.norm.shape = R) (hR : R.length = 3)
    (hF : Padded R f mode 0 F) (hFm : Padded R fm mode 0 Fm)
    (hCl : Padded R cl mode 0 Cl) (hCe : Padded R ce mode 0 Ce)
    (hfm : fm.shape = f.shape) (hcl : cl.shape = f.shape) (hce : ce.shape = f.shape)
    {pathTo : List Int → Outcome (List (List Int))} {s : List Int} {rows rest : List (List Int)}
    {z : List Int} (hp : pathTo s = ok rows) (hz : rows = z :: rest)
    (hz0 : ∀ x, InBox f.shape x → move x z = x)
    (hrows : ∀ d ∈ rows, d.length = R.length ∧ InBox R (plus (ctr R) d)) (δ0 : Delta K) :
    stampW2c pathTo (padWidth R) F Fm Cl Ce (E.plus δ0) s =
      if ∀ x ∈ pixels f.shape, IsCentre cl ce x → AllStored R fm mode x (rows.zip rows.tail) then
        ok (E.plus (δ0 + ((pixels f.shape).map fun x => if IsCentre cl ce x then
          cellDelta R f fm mode x (rows.zip rows.tail) else 0).sum)) else ub := by
  rw [stampW2c, hp, ok_bind, hF.loop]
  have h1 : ∀ (l : List (List Int)), (∀ x ∈ l, InBox f.shape x) → ∀ δ0 : Delta K,
      forM (l.map fun x => plus x (ctr R)) (E.plus δ0) (bodyW2c (padWidth R) F Fm Cl Ce rows) =
      if ∀ x ∈ l, IsCentre cl ce x → AllStored R fm mode x (rows.zip rows.tail) then
      ok (E.plus (δ0 + (l.map fun x => if IsCentre cl ce x then
        cellDelta R f fm mode x (rows.zip rows.tail) else 0).sum)) else ub := by
    intro l
    induction l with
    | nil => intro _ δ0; simp [forM]
    | cons x l ih =>
      intro h δ0
      simp only [List.map_cons, forM, bodyW2c_if hE1 hE3 hR hF hFm hCl hCe (h x (by simp)) hfm hcl hce
        hz (hz0 x (h x (by simp))) hrows]
      by_cases hq : IsCentre cl ce x → AllStored R fm mode x (rows.zip rows.tail)
      · rw [if_pos hq]
        show forM _ _ _ = _
        rw [ih (fun y hy => h y (List.mem_cons_of_mem _ hy))]
        simp only [List.forall_mem_cons, and_iff_right hq, List.sum_cons, add_assoc]
      · rw [if_neg hq, if_neg fun hh => hq (hh x (by simp))]
        rfl
  rw [h1 _ fun x hx => mem_pixels.1 hx]

end


theorem cell_eq {R : List Nat} (hR : ∀ n ∈ R, 0 < n) (h3 : R.length = 3) {d : List Int}
    (hd : d.length = R.length) : cell R d = ravelIndex (plus (ctr R) d) R + drift R := by
  obtain ⟨a, b, c, rfl⟩ := List.length_eq_three.1 h3
  obtain ⟨i, j, k, rfl⟩ := Path.length3 hd
  have hp : ∀ n ∈ [a, b, c], ((if n % 2 = 0 then (n / 2 - 1, n / 2) else ((n - 1) / 2, (n - 1) / 2)) : Nat × Nat).1 =
      (n - 1) / 2 := by
    intro n hn
    have := hR n hn
    split <;> simp
    omega
  have e : plus (originW2c (padWidth [a, b, c])) [i, j, k] =
      [(((a - 1) / 2 : Nat) : Int) + i, (((b - 1) / 2 : Nat) : Int) + j, (((b - 1) / 2 : Nat) : Int) + k] := by
    simp only [padWidth, List.map_cons, List.map_nil, originW2c, plus, List.zipWith_cons_cons,
      List.zipWith_nil_left, hp a (by simp), hp b (by simp)]
  have e' : plus (ctr [a, b, c]) [i, j, k] =
      [(((a - 1) / 2 : Nat) : Int) + i, (((b - 1) / 2 : Nat) : Int) + j, (((c - 1) / 2 : Nat) : Int) + k] := rfl
  rw [cell, e, e']
  simp only [ravelIndex, prodShape, drift]
  by_cases hc : c = 1
  · simp [hc]
  · simp only [hc, if_false]
    push_cast
    ring

theorem cell_raise {roi : List Nat} (hr : roi.length ≤ 3) (h0 : 0 ∉ roi) {e : List Int}
    (he : e.length = roi.length) (hb : InBox roi (move (ctr roi) e)) :
    cell (shape3 roi) (raise e) = slot roi e := by
  have hl3 : (shape3 roi).length = 3 := by
    obtain ⟨a, b, c, e⟩ := shape3_cases hr
    rw [e]; rfl
  have hl : (ctr roi).length = roi.length := by simp [ctr]
  have h1 : plus (ctr (shape3 roi)) (raise e) = raise (move (ctr roi) e) := by
    rw [← move_raise (by omega) (by omega)]
    show move _ _ = _
    congr 1
    cases same3 hr he <;> simp [ctr, shape3, raise]
  have hm : (move (ctr roi) e).length = roi.length := by simp [move, hl, he]
  have hre : (raise e).length = (shape3 roi).length := by
    rw [hl3]
    cases same3 hr he <;> rfl
  have hd : drift (shape3 roi) = drift roi := by
    cases same3 hr he <;> simp [drift, shape3]
  rw [cell_eq (shape3_pos hr h0) hl3 hre, h1, ravelIndex_eq ((inbox_raise hr hm).2 hb), flat_raise hr hm, hd]
  rfl

theorem move_ctr {roi : List Nat} {i : List Int} (h : i.length = roi.length) :
    move (ctr roi) (displacement roi i) = i := by
  induction roi generalizing i with
  | nil => rw [List.length_eq_zero_iff.1 h]; rfl
  | cons n roi ih =>
    cases i with
    | nil => simp at h
    | cons a i =>
      have := ih (i := i) (by simpa using h)
      simp only [move, ctr, displacement, List.map_cons, List.zipWith_cons_cons] at this ⊢
      rw [this]
      congr 1
      omega

/-- The effect of W2c, or the condition under which it accesses memory out of bounds. -/
theorem W2c_if {roi : List Nat} {periodic variance : Bool} {f : Nd K} {fmask clusters centers : Nd Int}
    (hr : roi.length ≤ 3) (h0 : 0 ∉ roi) (hf : f.shape.length = roi.length)
    (hfm : fmask.shape = f.shape) (hcl : clusters.shape = f.shape) (hce : centers.shape = f.shape)
    (bf : IsMask fmask) (hfit : Fits periodic f.shape roi)
    {junk : ℚ} {fuel : Nat} {mode : Path.Mode} {P : List Int → List (List Int)}
    (hP : ∀ s ∈ edge roi, IsPath junk fuel mode roi s (P s)) :
    (Within periodic fmask clusters centers roi ((edge roi).map P) →
      Effect roi periodic variance .W2c (fun dbg E => W2c dbg junk fuel E clusters centers f fmask mode) fun d =>
        let l := samplesWhere periodic f fmask clusters centers ((edge roi).map P)
          fun e => slot roi e = flat roi (move (ctr roi) d)
        (l.sum, 0, (l.length : K))) ∧
    (¬ Within periodic fmask clusters centers roi ((edge roi).map P) →
      ∀ dbg (E : Ensemble K), Good roi periodic variance E → (E.stat = .W2c ∨ E.stat = .unset) →
        W2c dbg junk fuel E clusters centers f fmask mode = ub) := by
  classical
  have hp : padMode periodic = .periodic → periodic = true := by cases periodic <;> simp [padMode]
  obtain ⟨F, eF, pF⟩ := padded hr h0 hf (padMode periodic) 0 fun h => hfit (hp h)
  obtain ⟨Fm, eFm, pFm⟩ := padded hr h0 (a := fmask) (hfm ▸ hf) (padMode periodic) 0 fun h => hfm ▸ hfit (hp h)
  obtain ⟨Cl, eCl, pCl⟩ := padded hr h0 (a := clusters) (hcl ▸ hf) (padMode periodic) 0 fun h => hcl ▸ hfit (hp h)
  obtain ⟨Ce, eCe, pCe⟩ := padded hr h0 (a := centers) (hce ▸ hf) (padMode periodic) 0 fun h => hce ▸ hfit (hp h)
  have hl3 : (shape3 roi).length = 3 := by
    obtain ⟨a, b, c, e⟩ := shape3_cases hr
    rw [e]; rfl
  have hrow : ∀ e : List Int, e.length = roi.length → InBox roi (move (ctr roi) e) →
      (raise e).length = (shape3 roi).length ∧ InBox (shape3 roi) (plus (ctr (shape3 roi)) (raise e)) := by
    intro e he hb
    have hl : (ctr roi).length = roi.length := by simp [ctr]
    have h1 : plus (ctr (shape3 roi)) (raise e) = raise (move (ctr roi) e) := by
      rw [← move_raise (by omega) (by omega)]
      show move _ _ = _
      congr 1
      cases same3 hr he <;> simp [ctr, shape3, raise]
    rw [h1, inbox_raise hr (by simp [move, hl, he]), hl3]
    refine ⟨?_, hb⟩
    cases same3 hr he <;> rfl
  set C : List Int → List (List Int) → Delta K := fun x rows =>
    if IsCentre clusters.atleast3d centers.atleast3d x then
      cellDelta (shape3 roi) f.atleast3d fmask.atleast3d (padMode periodic) x (rows.zip rows.tail) else 0 with hC
  set Q : List Int → Prop := fun s => ∀ x ∈ pixels f.atleast3d.shape,
    IsCentre clusters.atleast3d centers.atleast3d x →
      AllStored (shape3 roi) fmask.atleast3d (padMode periodic) x
        (((P s).map raise).zip ((P s).map raise).tail) with hQ
  have hloop : ∀ δ0 : Delta K,
      forM ((edge roi).map raise) ((fresh K roi periodic variance .W2c).plus δ0)
        (stampW2c (fun s => Path.path junk fuel [0, 0, 0] s mode) (padWidth (shape3 roi)) F Fm Cl Ce) =
      if ∀ s ∈ edge roi, Q s then
        ok ((fresh K roi periodic variance .W2c).plus (δ0 + ((edge roi).map fun s =>
          ((pixels f.atleast3d.shape).map fun x => C x ((P s).map raise)).sum).sum)) else ub := by
    have : ∀ (l : List (List Int)), (∀ s ∈ l, IsPath junk fuel mode roi s (P s)) → ∀ δ0 : Delta K,
        forM (l.map raise) ((fresh K roi periodic variance .W2c).plus δ0)
          (stampW2c (fun s => Path.path junk fuel [0, 0, 0] s mode) (padWidth (shape3 roi)) F Fm Cl Ce) =
        if ∀ s ∈ l, Q s then
          ok ((fresh K roi periodic variance .W2c).plus (δ0 + (l.map fun s =>
            ((pixels f.atleast3d.shape).map fun x => C x ((P s).map raise)).sum).sum)) else ub := by
      intro l
      induction l with
      | nil => intro _ δ0; simp [forM]
      | cons s l ih =>
        intro h δ0
        have hs := h s (by simp)
        obtain ⟨rest, hrest⟩ := hs.head
        have := stampW2c_if (E := fresh K roi periodic variance .W2c) (R := shape3 roi) rfl rfl hl3 pF pFm
          pCl pCe (congrArg shape3 hfm) (congrArg shape3 hcl) (congrArg shape3 hce)
          (pathTo := fun s => Path.path junk fuel [0, 0, 0] s mode) hs.path
          (z := [0, 0, 0]) (rest := rest.map raise) (by rw [hrest, List.map_cons, raise_zero hr]) (by
            intro x hx
            have := move_zero hx
            have e : f.atleast3d.shape.length = 3 := by
              obtain ⟨a, b, c, e⟩ := shape3_cases (s := f.shape) (by omega)
              show (shape3 f.shape).length = 3
              rw [e]; rfl
            rw [e] at this
            exact this) (by
            intro d hd
            obtain ⟨e, he, rfl⟩ := List.mem_map.1 hd
            exact hrow e (hs.mem e he).1 (hs.mem e he).2) δ0
        rw [List.map_cons, forM, this]
        by_cases hq : Q s
        · rw [if_pos hq]
          show forM _ _ _ = _
          rw [ih fun y hy => h y (List.mem_cons_of_mem _ hy)]
          simp only [List.forall_mem_cons, and_iff_right hq, List.map_cons, List.sum_cons, add_assoc, hC]
        · rw [if_neg hq, if_neg fun hh => hq (hh s (by simp))]
          rfl
    exact this _ hP
  have hcall : ∀ dbg (E : Ensemble K), Good roi periodic variance E → (E.stat = .W2c ∨ E.stat = .unset) →
      W2c dbg junk fuel E clusters centers f fmask mode =
        if ∀ s ∈ edge roi, Q s then ok ({ E with stat := .W2c }.plus ((edge roi).map fun s =>
          ((pixels f.atleast3d.shape).map fun x => C x ((P s).map raise)).sum).sum) else ub := by
    intro dbg E hE hs
    have e := (hE.stat .W2c).eq
    simp only [W2c, gassert, hf, hfm, hcl, hce, bf.binary, hE.shapeOrig, hs, decide_true,
      Bool.not_true, Bool.and_false, Bool.false_eq_true, if_false, ok_bind, hE.pad, hE.shape, hE.periodic,
      eF, eFm, eCl, eCe, stamps_eq hr h0]
    simp only [hE.shapeOrig, hE.pad, hE.shape, hE.periodic] at e
    rw [e, hloop, plus_plus]
  have e3 : pixels f.atleast3d.shape = (pixels f.shape).map raise := pixels_raise (by omega)
  have hcentre : ∀ x, InBox f.shape x →
      (IsCentre clusters.atleast3d centers.atleast3d (raise x) ↔ IsCentre clusters centers x) := by
    intro x hx
    have hxl := inbox_length hx
    have v1 : val centers.atleast3d (raise x) = val centers x :=
      val_atleast3d (by rw [hce]; omega) (by rw [hce]; exact hxl)
    have v2 : val clusters.atleast3d (raise x) = val clusters x :=
      val_atleast3d (by rw [hcl]; omega) (by rw [hcl]; exact hxl)
    simp only [IsCentre, v1, v2]
  have hzip : ∀ s, ∀ ab ∈ (P s).zip (P s).tail, ab.1 ∈ P s ∧ ab.2 ∈ P s := by
    rintro s ⟨a, b⟩ hab
    obtain ⟨h1, h2⟩ := List.of_mem_zip hab
    exact ⟨h1, List.mem_of_mem_tail h2⟩
  have hQW : (∀ s ∈ edge roi, Q s) ↔ Within periodic fmask clusters centers roi ((edge roi).map P) := by
    simp only [hQ, Within, List.forall_mem_map, e3, hcl]
    refine forall_congr' fun s => forall_congr' fun hs => forall_congr' fun x => forall_congr' fun hx => ?_
    have hx' := mem_pixels.1 hx
    rw [hcentre x hx']
    refine forall_congr' fun hc => ?_
    rw [← List.map_tail, List.zip_map, AllStored]
    simp only [List.forall_mem_map, Prod.map]
    refine forall_congr' fun ab => forall_congr' fun hab => ?_
    obtain ⟨a1, a2⟩ := (hP s hs).mem ab.1 (hzip s ab hab).1
    obtain ⟨b1, b2⟩ := (hP s hs).mem ab.2 (hzip s ab hab).2
    have w1 : fmask.atleast3d.extend (padMode periodic) 0 (move (raise x) (raise ab.2)) =
        valueAt periodic fmask x ab.2 :=
      extend_valueAt (by rw [hfm]; omega) (by rw [hfm]; exact hx') (by rw [hfm]; omega)
    rw [w1, Stored, cell_raise hr h0 a1 a2, shape3_prod hr]
  refine ⟨fun hW => ⟨((edge roi).map fun s => ((pixels f.atleast3d.shape).map fun x => C x ((P s).map raise)).sum).sum,
    fun dbg E hE hs => ?_, fun i hi => ?_⟩, fun hW dbg E hE hs => ?_⟩
  · dsimp only
    rw [hcall dbg E hE hs, if_pos (hQW.2 hW)]
  · have hmi : move (ctr roi) (displacement roi i) = i := move_ctr (inbox_length hi)
    dsimp only
    rw [hmi]
    have key : ∀ s ∈ edge roi, ∀ x ∈ pixels f.shape, (C (raise x) ((P s).map raise)).at (flat roi i).toNat =
        if IsCentre clusters centers x then
          let l := (((P s).zip (P s).tail).filter fun ab =>
            slot roi ab.1 = flat roi i ∧ valueAt periodic fmask x ab.2 = 0).map fun ab => valueAt periodic f x ab.2
          (l.sum, (0 : K), (l.length : K)) else 0 := by
      intro s hs x hx
      have hx0 := hx
      rw [mem_pixels] at hx
      have hm := (hP s hs).mem
      simp only [hC, hcentre x hx]
      by_cases hc : IsCentre clusters centers x
      · rw [if_pos hc, if_pos hc, ← List.map_tail, List.zip_map]
        simp only [cellDelta, List.map_map, Delta.at_sum]
        have hz := hzip s
        have hw : ∀ ab ∈ (P s).zip (P s).tail, valueAt periodic fmask x ab.2 = 0 → 0 ≤ slot roi ab.1 :=
          fun ab hab h => (hW _ (List.mem_map.2 ⟨s, hs, rfl⟩) x (hcl ▸ hx0) hc ab hab h).1
        revert hz hw
        generalize (P s).zip (P s).tail = l
        intro hz hw
        induction l with
        | nil => simp; rfl
        | cons ab l ih =>
          have := ih (fun ab hab => hz ab (List.mem_cons_of_mem _ hab))
            fun ab hab => hw ab (List.mem_cons_of_mem _ hab)
          obtain ⟨a1, a2⟩ := hm ab.1 (hz ab (by simp)).1
          obtain ⟨b1, b2⟩ := hm ab.2 (hz ab (by simp)).2
          have w1 : fmask.atleast3d.extend (padMode periodic) 0 (move (raise x) (raise ab.2)) =
              valueAt periodic fmask x ab.2 :=
            extend_valueAt (by rw [hfm]; omega) (by rw [hfm]; exact hx) (by rw [hfm]; omega)
          have w2 : f.atleast3d.extend (padMode periodic) 0 (move (raise x) (raise ab.2)) =
              valueAt periodic f x ab.2 := extend_valueAt (by omega) hx (by omega)
          rw [List.map_cons, List.sum_cons, this]
          simp only [Function.comp, Prod.map, w1, w2]
          by_cases hv : valueAt periodic fmask x ab.2 = 0
          · have h0' := hw ab (by simp) hv
            have hr0 := flat_range hi
            have hcl' := cell_raise hr h0 a1 a2
            by_cases hd : slot roi ab.1 = flat roi i
            · rw [List.filter_cons_of_pos (by simp [hv, hd])]
              simp [hv, Delta.at, cellBoth, hcl', hd, add_comm]
            · rw [List.filter_cons_of_neg (by simp [hd])]
              have : ¬ (flat roi i).toNat = (slot roi ab.1).toNat := by omega
              simp [hv, Delta.at, cellBoth, hcl', this]
          · rw [List.filter_cons_of_neg (by simp [hv])]
            simp [hv, Delta.at]
      · rw [if_neg hc, if_neg hc]
        rfl
    rw [Delta.at_sum, List.map_map]
    simp only [samplesWhere, List.flatMap_map]
    clear hloop hcall hQW hW
    revert key
    generalize edge roi = ss
    intro key
    induction ss with
    | nil => simp; rfl
    | cons s ss ih =>
      have := ih fun s hs => key s (List.mem_cons_of_mem _ hs)
      rw [List.map_cons, List.sum_cons, this]
      simp only [List.flatMap_cons, List.sum_append, List.length_append, Function.comp]
      have e4 : Delta.at (((pixels f.atleast3d.shape).map fun x => C x ((P s).map raise)).sum) (flat roi i).toNat =
          let l := ((pixels f.shape).filter fun x => IsCentre clusters centers x).flatMap fun x =>
            (((P s).zip (P s).tail).filter fun ab => slot roi ab.1 = flat roi i ∧
              valueAt periodic fmask x ab.2 = 0).map fun ab => valueAt periodic f x ab.2
          (l.sum, (0 : K), (l.length : K)) := by
        have hk := key s (by simp)
        rw [e3, Delta.at_sum, List.map_map, List.map_map]
        revert hk
        generalize pixels f.shape = xs
        intro hk
        induction xs with
        | nil => simp; rfl
        | cons x xs ih =>
          have e5 := ih fun x hx => hk x (List.mem_cons_of_mem _ hx)
          have e6 := hk x (by simp)
          rw [List.map_cons, List.sum_cons, e5]
          simp only [Function.comp, e6]
          by_cases hc : IsCentre clusters centers x
          · rw [List.filter_cons_of_pos (by simpa using hc)]
            simp [hc, List.flatMap_cons]
          · rw [List.filter_cons_of_neg (by simpa using hc)]
            simp [hc]
      rw [e4]
      simp
  · rw [hcall dbg E hE hs, if_neg fun h => hW (hQW.1 h)]

end Verif.Ens
