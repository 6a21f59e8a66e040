import Verif.Lemmas.Lineal
import Verif.Spec.Collapsed

/-! # The effect of a call of W2c -/

set_option linter.unusedSectionVars false

namespace Verif.Ens

open Verif Outcome Spec Cluster Nd

variable {K : Type} [Field K] [LinearOrder K] [IsStrictOrderedRing K]

/-- The index used for the third axis is right, or irrelevant. -/
def ThirdAxis (R : List Nat) : Prop :=
  ∃ a b c, R = [a, b, c] ∧ (c = 1 ∨ (b - 1) / 2 = (c - 1) / 2)

theorem ravelIndex_one (a b : Nat) (i j k k' : Int) :
    ravelIndex [i, j, k] [a, b, 1] = ravelIndex [i, j, k'] [a, b, 1] := by
  simp [ravelIndex]

theorem originW2c_index {R : List Nat} (hR : ∀ n ∈ R, 0 < n) (ht : ThirdAxis R) {d : List Int}
    (hd : d.length = R.length) :
    ravelIndex (plus (originW2c (padWidth R)) d) R = ravelIndex (plus (ctr R) d) R ∧
      (plus (originW2c (padWidth R)) d).length = R.length := by
  have h := origin_pad hR
  obtain ⟨a, b, c, rfl, h'⟩ := ht
  obtain ⟨i, j, k, rfl⟩ := Path.length3 hd
  have hp : ∀ n ∈ [a, b, c], ((if n % 2 = 0 then (n / 2 - 1, n / 2) else ((n - 1) / 2, (n - 1) / 2)) : Nat × Nat).1 =
      (n - 1) / 2 := by
    intro n hn
    have := hR n hn
    split <;> simp
    omega
  have e : plus (originW2c (padWidth [a, b, c])) [i, j, k] =
      [(((a - 1) / 2 : Nat) : Int) + i, (((b - 1) / 2 : Nat) : Int) + j, (((b - 1) / 2 : Nat) : Int) + k] := by
    simp only [padWidth, List.map_cons, List.map_nil, originW2c, plus, List.zipWith_cons_cons,
      List.zipWith_nil_left, hp a (by simp), hp b (by simp)]
  rw [e]
  refine ⟨?_, rfl⟩
  show _ = ravelIndex [(((a - 1) / 2 : Nat) : Int) + i, (((b - 1) / 2 : Nat) : Int) + j,
    (((c - 1) / 2 : Nat) : Int) + k] _
  rcases h' with rfl | h'
  · exact ravelIndex_one _ _ _ _ _ _
  · rw [h']

theorem addAt_origin {R : List Nat} (hR : ∀ n ∈ R, 0 < n) (ht : ThirdAxis R) {d : List Int}
    (hd : d.length = R.length) {a : Nd K} (ha : a.shape = R) (v : K) :
    a.addAt (plus (originW2c (padWidth R)) d) v = a.addAt (plus (ctr R) d) v := by
  obtain ⟨h1, h2⟩ := originW2c_index hR ht hd
  have h3 : (plus (ctr R) d).length = R.length := by simp [plus, ctr, hd]
  simp only [Nd.addAt, Nd.valid, ha, h1, h2, h3]

/-- What one row of a path adds. -/
def rowBoth (R : List Nat) (v : K) (d : List Int) : Delta K :=
  (fun k => if k = (flat R (plus (ctr R) d)).toNat then v else 0, 0,
    fun k => if k = (flat R (plus (ctr R) d)).toNat then 1 else 0)

theorem addBoth_at {E : Ensemble K} {R : List Nat} (h1 : E.first.shape = R) (h3 : E.norm.shape = R)
    {d : List Int} (hy : InBox R (plus (ctr R) d)) (v : K) (δ0 : Delta K) :
    (do
      let norm ← (E.plus δ0).norm.addAt (plus (ctr R) d) 1
      let first ← (E.plus δ0).first.addAt (plus (ctr R) d) v
      pure { E.plus δ0 with norm := norm, first := first }) =
    ok (E.plus (δ0 + rowBoth R v d)) := by
  have hv1 : (E.plus δ0).first.valid (plus (ctr R) d) = true :=
    valid_of_inbox (by simpa [Ensemble.plus, h1] using hy)
  have hv3 : (E.plus δ0).norm.valid (plus (ctr R) d) = true :=
    valid_of_inbox (by simpa [Ensemble.plus, h3] using hy)
  rw [Nd.addAt, if_pos hv3, ok_bind, Nd.addAt, if_pos hv1, ok_bind, pure_eq]
  simp only [Ensemble.plus, h1, h3, ravelIndex_eq hy, Prod.fst_add, Prod.snd_add, add_zero, rowBoth]
  congr 3
  · funext k
    simp only [Pi.add_apply]
    split <;> simp [add_assoc]
  · funext k
    simp only [Pi.add_apply]
    split <;> simp [add_assoc]

/-- What a walk along a path adds: row `j + 1` is stored at row `j`. -/
def walkDelta (R : List Nat) (f : Nd K) (fm : Nd Int) (mode : PadMode) (x : List Int)
    (l : List (List Int × List Int)) : Delta K :=
  (l.map fun ab => if fm.extend mode 0 (move x ab.2) = 0 then
    rowBoth R (f.extend mode 0 (move x ab.2)) ab.1 else 0).sum

section

variable {R : List Nat} {f F : Nd K} {fm Fm cl Cl ce Ce : Nd Int} {mode : PadMode} {E : Ensemble K}
  {x : List Int}

theorem walkW2c_tail (hE1 : E.first.shape = R) (hE3 : E.norm.shape = R) (hR : ∀ n ∈ R, 0 < n)
    (ht : ThirdAxis R) (hF : Padded R f mode 0 F) (hFm : Padded R fm mode 0 Fm)
    (hCl : Padded R cl mode 0 Cl) (hx : InBox f.shape x) (hfm : fm.shape = f.shape)
    (hcl : cl.shape = f.shape) (label : Int) :
    ∀ {todo pre : List (List Int)} {a : List Int},
      (∀ d ∈ a :: todo, d.length = R.length ∧ InBox R (plus (ctr R) d)) →
      ∀ δ0, walkW2c (padWidth R) F Fm Cl label (plus x (ctr R)) (pre ++ a :: todo) todo (pre.length : Int)
        (E.plus δ0) = ok (E.plus (δ0 + walkDelta R f fm mode x ((a :: todo).zip todo)))
  | [], pre, a, _, δ0 => by simp [walkW2c, walkDelta]
  | b :: todo, pre, a, h, δ0 => by
    obtain ⟨a1, a2⟩ := h a (by simp)
    obtain ⟨b1, b2⟩ := h b (by simp)
    have r1 := hCl.near (hcl.symm ▸ hx) b1 b2
    have r2 := hFm.near (hfm.symm ▸ hx) b1 b2
    have r3 := hF.near hx b1 b2
    have hq : ¬ (cl.extend mode 0 (move x b) ≠ label ∧ ((pre.length : Nat) : Int) < 0) := by omega
    have hg : (pre ++ a :: b :: todo)[((pre.length : Nat) : Int).toNat]? = some a := by simp
    have ih := walkW2c_tail hE1 hE3 hR ht hF hFm hCl hx hfm hcl label (todo := todo) (pre := pre ++ [a])
      (a := b) (fun d hd => h d (List.mem_cons_of_mem _ hd))
    have e1 : pre ++ [a] ++ b :: todo = pre ++ a :: b :: todo := by simp
    have e2 : (((pre ++ [a]).length : Nat) : Int) = ((pre.length : Nat) : Int) + 1 := by simp
    rw [e1, e2] at ih
    rw [walkW2c, r1, ok_bind]
    simp only [if_neg hq]
    rw [if_pos (by omega : (0 : Int) ≤ ((pre.length : Nat) : Int)), r2, ok_bind]
    by_cases hm : fm.extend mode 0 (move x b) = 0
    · rw [if_pos hm, hg]
      simp only
      have e3 := addBoth_at hE1 hE3 a2 (f.extend mode 0 (move x b)) δ0
      have s1 : (E.plus δ0).norm.shape = R := hE3
      have s2 : (E.plus δ0).first.shape = R := hE1
      rw [r3]
      simp only [addAt_origin hR ht a1 s1, addAt_origin hR ht a1 s2, ok_bind]
      rw [e3, ok_bind, ih]
      simp [walkDelta, hm, add_assoc]
    · rw [if_neg hm, pure_eq, ok_bind, ih]
      simp [walkDelta, hm]

theorem bodyW2c_adds (hE1 : E.first.shape = R) (hE3 : E.norm.shape = R) (hR : ∀ n ∈ R, 0 < n)
    (ht : ThirdAxis R) (hF : Padded R f mode 0 F) (hFm : Padded R fm mode 0 Fm)
    (hCl : Padded R cl mode 0 Cl) (hCe : Padded R ce mode 0 Ce) (hx : InBox f.shape x)
    (hfm : fm.shape = f.shape) (hcl : cl.shape = f.shape) (hce : ce.shape = f.shape)
    {rows rest : List (List Int)} {z : List Int} (hz : rows = z :: rest) (hz0 : move x z = x)
    (hrows : ∀ d ∈ rows, d.length = R.length ∧ InBox R (plus (ctr R) d)) (δ0 : Delta K) :
    bodyW2c (padWidth R) F Fm Cl Ce rows (E.plus δ0) (plus x (ctr R)) =
      ok (E.plus (δ0 + if val ce x ≠ 0 ∧ val cl x = val ce x then
        walkDelta R f fm mode x (rows.zip rows.tail) else 0)) := by
  have r0 := hCe.read (x := x) (hce.symm ▸ hx)
  have r1 := hCl.read (x := x) (hcl.symm ▸ hx)
  rw [bodyW2c, r0, ok_bind]
  by_cases h0 : val ce x = 0
  · rw [if_pos h0, pure_eq, if_neg (by simp [h0]), add_zero]
  rw [if_neg h0, r1, ok_bind]
  by_cases h1 : val cl x = val ce x
  · rw [if_neg (by simpa using h1), if_pos ⟨h0, h1⟩]
    subst hz
    obtain ⟨z1, z2⟩ := hrows z (by simp)
    have r2 := hCl.near (hcl.symm ▸ hx) z1 z2
    have hext : cl.extend mode 0 (move x z) = val cl x := by
      have := hCl.read (x := x) (hcl.symm ▸ hx)
      have e : plus (plus x (ctr R)) z = plus x (ctr R) := by
        have e1 : plus (plus x (ctr R)) z = plus (plus x z) (ctr R) := by
          simp only [plus]
          clear * -
          induction x generalizing z R with
          | nil => simp
          | cons a x ih =>
            cases R with
            | nil => simp [ctr]
            | cons n R =>
              cases z with
              | nil => simp
              | cons b z =>
                have := ih (R := R) (z := z)
                simp only [ctr, List.map_cons, List.zipWith_cons_cons] at this ⊢
                rw [this]
                congr 1
                omega
        rw [e1]
        have e2 : plus x z = x := hz0
        rw [e2]
      rw [e, this, ok.injEq] at r2
      exact r2.symm
    rw [walkW2c, r2, ok_bind]
    simp only [hext, h1, ne_eq, not_true_eq_false, false_and, if_false]
    rw [if_neg (by omega : ¬ (0 : Int) ≤ -1), pure_eq, ok_bind]
    exact walkW2c_tail hE1 hE3 hR ht hF hFm hCl hx hfm hcl _ (pre := []) hrows δ0
  · rw [if_pos (by simpa using h1), if_neg (by simp [h1]), pure_eq, add_zero]

theorem stampW2c_adds (hE1 : E.first.shape = R) (hE3 : E.norm.shape = R) (hR : ∀ n ∈ R, 0 < n)
    (ht : ThirdAxis R) (hF : Padded R f mode 0 F) (hFm : Padded R fm mode 0 Fm)
    (hCl : Padded R cl mode 0 Cl) (hCe : Padded R ce mode 0 Ce)
    (hfm : fm.shape = f.shape) (hcl : cl.shape = f.shape) (hce : ce.shape = f.shape)
    {pathTo : List Int → Outcome (List (List Int))} {s : List Int} {rows rest : List (List Int)}
    {z : List Int} (hp : pathTo s = ok rows) (hz : rows = z :: rest)
    (hz0 : ∀ x, InBox f.shape x → move x z = x)
    (hrows : ∀ d ∈ rows, d.length = R.length ∧ InBox R (plus (ctr R) d)) (δ0 : Delta K) :
    stampW2c pathTo (padWidth R) F Fm Cl Ce (E.plus δ0) s =
      ok (E.plus (δ0 + ((pixels f.shape).map fun x => if val ce x ≠ 0 ∧ val cl x = val ce x then
        walkDelta R f fm mode x (rows.zip rows.tail) else 0).sum)) := by
  have h1 : ∀ (l : List (List Int)), (∀ x ∈ l, InBox f.shape x) → ∀ δ0 : Delta K,
      forM (l.map fun x => plus x (ctr R)) (E.plus δ0) (bodyW2c (padWidth R) F Fm Cl Ce rows) =
      ok (E.plus (δ0 + (l.map fun x => if val ce x ≠ 0 ∧ val cl x = val ce x then
        walkDelta R f fm mode x (rows.zip rows.tail) else 0).sum)) := by
    intro l
    induction l with
    | nil => intro _ δ0; simp [forM]
    | cons x l ih =>
      intro h δ0
      simp only [List.map_cons, forM, bodyW2c_adds hE1 hE3 hR ht hF hFm hCl hCe (h x (by simp)) hfm hcl hce
        hz (hz0 x (h x (by simp))) hrows, Outcome.bind,
        ih (fun y hy => h y (List.mem_cons_of_mem _ hy)), List.sum_cons, add_assoc]
  rw [stampW2c, hp, ok_bind, hF.loop, h1 _ fun x hx => mem_pixels.1 hx]

end

theorem extend_valueAt {α : Type} [Zero α] {periodic : Bool} {a : Nd α} {x e : List Int}
    (h3 : a.shape.length ≤ 3) (hx : InBox a.shape x) (he : e.length = a.shape.length) :
    a.atleast3d.extend (padMode periodic) 0 (move (raise x) (raise e)) = valueAt periodic a x e := by
  have hxl := inbox_length hx
  have hm : (move x e).length = a.shape.length := by rw [move_length (by omega), hxl]
  rw [move_raise (by omega) (by omega), extend_atleast3d h3 hm (inbox_pos hx)]
  unfold valueAt target
  cases periodic with
  | true =>
    have : wrap a.shape (move x e) ∈ pixels a.shape := mem_pixels.2 (wrap_inbox hm (inbox_pos hx))
    simp [padMode, this]
  | false => simp [padMode]

theorem sum_filter_map {β : Type} (l : List β) (q : β → Bool) (g : β → K) :
    ((l.filter q).map g).sum = (l.map fun b => if q b then g b else 0).sum := by
  induction l with
  | nil => rfl
  | cons b l ih => cases h : q b <;> simp [h, ih]

theorem move_zero {s : List Nat} {x : List Int} (hx : InBox s x) :
    move x (List.replicate s.length 0) = x := by
  rw [← inbox_length hx]
  clear hx
  induction x with
  | nil => rfl
  | cons a x ih => simpa [move, List.replicate_succ] using ih

theorem W2c_effect {roi : List Nat} {periodic variance : Bool} {f : Nd K} {fmask clusters centers : Nd Int}
    (hr : roi.length ≤ 3) (h0 : 0 ∉ roi) (ht : ThirdAxis (shape3 roi)) (hf : f.shape.length = roi.length)
    (hfm : fmask.shape = f.shape) (hcl : clusters.shape = f.shape) (hce : centers.shape = f.shape)
    (bf : IsMask fmask) (hfit : Fits periodic f.shape roi)
    {junk : ℚ} {fuel : Nat} {mode : Path.Mode} {P : List Int → List (List Int)}
    (hP : ∀ s ∈ edge roi, IsPath junk fuel mode roi s (P s)) :
    Effect roi periodic variance .W2c (fun dbg E => W2c dbg junk fuel E clusters centers f fmask mode) fun d =>
      let l := samples periodic f fmask clusters centers (fun _ p => p.tail) ((edge roi).map P) d
      (l.sum, 0, (l.length : K)) := by
  have hp : padMode periodic = .periodic → periodic = true := by cases periodic <;> simp [padMode]
  obtain ⟨F, eF, pF⟩ := padded hr h0 hf (padMode periodic) 0 fun h => hfit (hp h)
  obtain ⟨Fm, eFm, pFm⟩ := padded hr h0 (a := fmask) (hfm ▸ hf) (padMode periodic) 0 fun h => hfm ▸ hfit (hp h)
  obtain ⟨Cl, eCl, pCl⟩ := padded hr h0 (a := clusters) (hcl ▸ hf) (padMode periodic) 0 fun h => hcl ▸ hfit (hp h)
  obtain ⟨Ce, eCe, pCe⟩ := padded hr h0 (a := centers) (hce ▸ hf) (padMode periodic) 0 fun h => hce ▸ hfit (hp h)
  have hR := shape3_pos hr h0
  have hl3 : (shape3 roi).length = 3 := by
    obtain ⟨a, b, c, e⟩ := shape3_cases hr
    rw [e]; rfl
  have hrow : ∀ e : List Int, e.length = roi.length → InBox roi (move (ctr roi) e) →
      (raise e).length = (shape3 roi).length ∧ InBox (shape3 roi) (plus (ctr (shape3 roi)) (raise e)) := by
    intro e he hb
    have hl : (ctr roi).length = roi.length := by simp [ctr]
    have h1 : plus (ctr (shape3 roi)) (raise e) = raise (move (ctr roi) e) := by
      rw [← move_raise (by omega) (by omega)]
      show move _ _ = _
      congr 1
      cases same3 hr he <;> simp [ctr, shape3, raise]
    rw [h1, inbox_raise hr (by simp [move, hl, he]), hl3]
    refine ⟨?_, hb⟩
    cases same3 hr he <;> rfl
  set C : List Int → List (List Int) → Delta K := fun x rows =>
    if val centers.atleast3d x ≠ 0 ∧ val clusters.atleast3d x = val centers.atleast3d x then
      walkDelta (shape3 roi) f.atleast3d fmask.atleast3d (padMode periodic) x (rows.zip rows.tail) else 0 with hC
  have hloop : ∀ (l : List (List Int)), (∀ s ∈ l, IsPath junk fuel mode roi s (P s)) → ∀ δ0 : Delta K,
      forM (l.map raise) ((fresh K roi periodic variance .W2c).plus δ0)
        (stampW2c (fun s => Path.path junk fuel [0, 0, 0] s mode) (padWidth (shape3 roi)) F Fm Cl Ce) =
      ok ((fresh K roi periodic variance .W2c).plus (δ0 + (l.map fun s =>
        ((pixels f.atleast3d.shape).map fun x => C x ((P s).map raise)).sum).sum)) := by
    intro l
    induction l with
    | nil => intro _ δ0; simp [forM]
    | cons s l ih =>
      intro h δ0
      have hs := h s (by simp)
      obtain ⟨rest, hrest⟩ := hs.head
      have := stampW2c_adds (E := fresh K roi periodic variance .W2c) (R := shape3 roi) rfl rfl hR ht pF pFm
        pCl pCe (congrArg shape3 hfm) (congrArg shape3 hcl) (congrArg shape3 hce)
        (pathTo := fun s => Path.path junk fuel [0, 0, 0] s mode) hs.path
        (z := [0, 0, 0]) (rest := rest.map raise) (by rw [hrest, List.map_cons, raise_zero hr]) (by
          intro x hx
          have := move_zero hx
          have e : f.atleast3d.shape.length = 3 := by
            obtain ⟨a, b, c, e⟩ := shape3_cases (s := f.shape) (by omega)
            show (shape3 f.shape).length = 3
            rw [e]; rfl
          rw [e] at this
          exact this) (by
          intro d hd
          obtain ⟨e, he, rfl⟩ := List.mem_map.1 hd
          exact hrow e (hs.mem e he).1 (hs.mem e he).2) δ0
      simp only [List.map_cons, forM, this, Outcome.bind,
        ih (fun y hy => h y (List.mem_cons_of_mem _ hy)), List.sum_cons, add_assoc, hC]
  refine ⟨((edge roi).map fun s => ((pixels f.atleast3d.shape).map fun x => C x ((P s).map raise)).sum).sum,
    fun dbg E hE hs => ?_, fun i hi => ?_⟩
  · have e := (hE.stat .W2c).eq
    simp only [W2c, gassert, hf, hfm, hcl, hce, bf.binary, hE.shapeOrig, hs, decide_true,
      Bool.not_true, Bool.and_false, Bool.false_eq_true, if_false, ok_bind, hE.pad, hE.shape, hE.periodic,
      eF, eFm, eCl, eCe, stamps_eq hr h0]
    simp only [hE.shapeOrig, hE.pad, hE.shape, hE.periodic] at e
    rw [e, hloop _ hP, plus_plus]
  · have key : ∀ s ∈ edge roi, ∀ x ∈ pixels f.shape, (C (raise x) ((P s).map raise)).at (flat roi i).toNat =
        if IsCentre clusters centers x then
          let l := (((P s).zip (P s).tail).filter fun ab =>
            ab.1 = displacement roi i ∧ valueAt periodic fmask x ab.2 = 0).map fun ab => valueAt periodic f x ab.2
          (l.sum, (0 : K), (l.length : K)) else 0 := by
      intro s hs x hx
      rw [mem_pixels] at hx
      have hxl := inbox_length hx
      have hm := (hP s hs).mem
      have v1 : val centers.atleast3d (raise x) = val centers x :=
        val_atleast3d (by rw [hce]; omega) (by rw [hce]; exact hxl)
      have v2 : val clusters.atleast3d (raise x) = val clusters x :=
        val_atleast3d (by rw [hcl]; omega) (by rw [hcl]; exact hxl)
      simp only [hC, v1, v2]
      have hI : IsCentre clusters centers x ↔ val centers x ≠ 0 ∧ val clusters x = val centers x := Iff.rfl
      by_cases hc : val centers x ≠ 0 ∧ val clusters x = val centers x
      · rw [if_pos hc, if_pos (hI.2 hc), ← List.map_tail, List.zip_map]
        simp only [walkDelta, List.map_map, Delta.at_sum]
        have hz : ∀ ab ∈ (P s).zip (P s).tail, ab.1 ∈ P s ∧ ab.2 ∈ P s := by
          rintro ⟨a, b⟩ hab
          obtain ⟨h1, h2⟩ := List.of_mem_zip hab
          exact ⟨h1, List.mem_of_mem_tail h2⟩
        revert hz
        generalize (P s).zip (P s).tail = l
        intro hz
        induction l with
        | nil => simp; rfl
        | cons ab l ih =>
          have := ih fun ab hab => hz ab (List.mem_cons_of_mem _ hab)
          obtain ⟨a1, a2⟩ := hm ab.1 (hz ab (by simp)).1
          obtain ⟨b1, b2⟩ := hm ab.2 (hz ab (by simp)).2
          have w1 : fmask.atleast3d.extend (padMode periodic) 0 (move (raise x) (raise ab.2)) =
              valueAt periodic fmask x ab.2 :=
            extend_valueAt (by rw [hfm]; omega) (by rw [hfm]; exact hx) (by rw [hfm]; omega)
          have w2 : f.atleast3d.extend (padMode periodic) 0 (move (raise x) (raise ab.2)) =
              valueAt periodic f x ab.2 := extend_valueAt (by omega) hx (by omega)
          rw [List.map_cons, List.sum_cons, this]
          simp only [Function.comp, Prod.map, w1, w2]
          have hidx := row_index hr h0 hi a1 a2
          by_cases hv : valueAt periodic fmask x ab.2 = 0
          · by_cases hd : ab.1 = displacement roi i
            · rw [List.filter_cons_of_pos (by simp [hv, hd])]
              simp [hv, Delta.at, rowBoth, hidx.2 hd, add_comm]
            · rw [List.filter_cons_of_neg (by simp [hd])]
              have : ¬ (flat roi i).toNat = (flat (shape3 roi) (plus (ctr (shape3 roi)) (raise ab.1))).toNat :=
                fun h => hd (hidx.1 h)
              simp [hv, Delta.at, rowBoth, this]
          · rw [List.filter_cons_of_neg (by simp [hv])]
            simp [hv, Delta.at]
      · rw [if_neg hc, if_neg fun h => hc (hI.1 h)]
        rfl
    have e3 : pixels f.atleast3d.shape = (pixels f.shape).map raise := pixels_raise (by omega)
    rw [Delta.at_sum, List.map_map]
    simp only [samples, List.flatMap_map]
    revert key
    generalize edge roi = ss
    intro key
    induction ss with
    | nil => simp; rfl
    | cons s ss ih =>
      have := ih fun s hs => key s (List.mem_cons_of_mem _ hs)
      rw [List.map_cons, List.sum_cons, this]
      simp only [List.flatMap_cons, List.sum_append, List.length_append, Function.comp]
      have e4 : Delta.at (((pixels f.atleast3d.shape).map fun x => C x ((P s).map raise)).sum) (flat roi i).toNat =
          let l := ((pixels f.shape).filter fun x => IsCentre clusters centers x).flatMap fun x =>
            (((P s).zip (P s).tail).filter fun ab => ab.1 = displacement roi i ∧
              valueAt periodic fmask x ab.2 = 0).map fun ab => valueAt periodic f x ab.2
          (l.sum, (0 : K), (l.length : K)) := by
        have hk := key s (by simp)
        rw [e3, Delta.at_sum, List.map_map, List.map_map]
        revert hk
        generalize pixels f.shape = xs
        intro hk
        induction xs with
        | nil => simp; rfl
        | cons x xs ih =>
          have e5 := ih fun x hx => hk x (List.mem_cons_of_mem _ hx)
          have e6 := hk x (by simp)
          rw [List.map_cons, List.sum_cons, e5]
          simp only [Function.comp, e6]
          by_cases hc : IsCentre clusters centers x
          · rw [List.filter_cons_of_pos (by simpa using hc)]
            simp [hc, List.flatMap_cons]
          · rw [List.filter_cons_of_neg (by simpa using hc)]
            simp [hc]
      rw [e4]
      simp

end Verif.Ens
