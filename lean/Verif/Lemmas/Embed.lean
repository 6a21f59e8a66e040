import Verif.Lemmas.History
import Verif.Model.Special
import Verif.Props.History

/-! # The functions of `Ensemble` commute with an embedding of the numbers -/

set_option linter.unusedSectionVars false

namespace Verif.Ens

open Verif Outcome Nd

variable {K S : Type}
  [Zero K] [One K] [Add K] [Sub K] [Neg K] [Mul K] [Div K] [Pow K Nat] [NatCast K] [IntCast K] [LE K]
  [DecidableLE K] [Max K] [DecidableEq K]
  [Zero S] [One S] [Add S] [Sub S] [Neg S] [Mul S] [Div S] [Pow S Nat] [NatCast S] [IntCast S] [LE S]
  [DecidableLE S] [Max S] [DecidableEq S]
variable {P : Type} [Zero P] [One P] [Add P] [Sub P] [Neg P] [Mul P] [Div P] [NatCast P] [IntCast P] [DecidableEq P]
  [LT P] [DecidableLT P]

/-- `φ` keeps the operations by which realisations are accumulated. -/
structure Embeds (φ : K → S) : Prop where
  zero : φ 0 = 0
  one : φ 1 = 1
  add : ∀ a b, φ (a + b) = φ a + φ b
  sub : ∀ a b, φ (a - b) = φ a - φ b
  mul : ∀ a b, φ (a * b) = φ a * φ b
  pow : ∀ a (n : Nat), φ (a ^ n) = φ a ^ n
  nat : ∀ n : Nat, φ n = n
  int : ∀ n : Int, φ n = n
  inj : ∀ a b, φ a = φ b ↔ a = b

variable {φ : K → S}

/-- The ensemble with all numbers embedded. -/
def Ensemble.embed (φ : K → S) (E : Ensemble K) : Ensemble S :=
  { stat := E.stat, periodic := E.periodic, variance := E.variance, first := E.first.map φ, second := E.second.map φ,
    norm := E.norm.map φ, shapeOrig := E.shapeOrig, shape := E.shape, pad := E.pad }

theorem map_bind {α β γ : Type} (o : Outcome α) (g : α → Outcome β) (h : β → γ) :
    (o >>= g).map h = o >>= fun a => (g a).map h := by cases o <;> rfl

theorem bind_map {α β γ : Type} (o : Outcome α) (g : α → β) (h : β → Outcome γ) :
    o.map g >>= h = o >>= fun a => h (g a) := by cases o <;> rfl

theorem map_ok {α β : Type} (a : α) (g : α → β) : (ok a).map g = ok (g a) := rfl

theorem map_if {α β : Type} (p : Prop) [Decidable p] (a b : Outcome α) (g : α → β) :
    (if p then a else b).map g = if p then a.map g else b.map g := by split <;> rfl

theorem forM_embed {α σ τ : Type} (g : σ → τ) {body : σ → α → Outcome σ} {body' : τ → α → Outcome τ}
    (h : ∀ s x, body' (g s) x = (body s x).map g) : ∀ (l : List α) (s : σ), forM l (g s) body' = (forM l s body).map g
  | [], s => rfl
  | x :: l, s => by
    unfold forM
    rw [h]
    cases body s x with
    | ok s' => exact forM_embed g h l s'
    | throws => rfl
    | ub => rfl
    | diverge => rfl

theorem read_embed (a : Nd K) (x : List Int) : (a.map φ).read x = (a.read x).map φ := by
  unfold Nd.read Nd.valid Nd.at_ Nd.map Nd.size
  simp only [map_if]
  rfl

theorem addAt_embed (hφ : Embeds φ) (a : Nd K) (x : List Int) (v : K) :
    (a.map φ).addAt x (φ v) = (a.addAt x v).map (Nd.map φ) := by
  unfold Nd.addAt Nd.valid Nd.map Nd.size
  simp only [map_if, map_ok, ← hφ.add, ← apply_ite φ]
  rfl

theorem map₂_embed {a a' : Nd K} {g : K → K → K} {g' : S → S → S} (h : ∀ x y, g' (φ x) (φ y) = φ (g x y)) :
    map₂ g' (a.map φ) (a'.map φ) = (map₂ g a a').map (Nd.map φ) := by
  unfold Nd.map₂ Nd.map
  simp only [map_if, map_ok, h]
  rfl

theorem pad_embed (hφ : Embeds φ) (a : Nd K) (w : List (Nat × Nat)) (mode : PadMode) :
    (a.map φ).atleast3d.pad w mode 0 = (a.atleast3d.pad w mode 0).map (Nd.map φ) := by
  unfold Nd.pad
  simp only [map_if, map_ok]
  have : ∀ x, (a.map φ).atleast3d.extend mode 0 x = φ (a.atleast3d.extend mode 0 x) := by
    intro x
    cases mode
    · simp only [extend]
      rw [apply_ite φ, hφ.zero]
      rfl
    · rfl
  simp only [this]
  rfl

theorem view_embed (a : Nd K) (r : List (Int × Int)) : (a.map φ).view r = (a.view r).map (Nd.map φ) := by
  unfold Nd.view
  simp only [map_if, map_ok]
  rfl

theorem unmasked_embed (hφ : Embeds φ) (m : Nd Int) (pad : List (Nat × Nat)) (x : List Int) :
    (unmasked m pad x : Outcome (Nd S)) = (unmasked m pad x : Outcome (Nd K)).map (Nd.map φ) := by
  unfold unmasked
  rw [map_bind]
  congr 1
  funext v
  simp only [pure_eq, map_ok, Nd.map, hφ.sub, hφ.one, hφ.int]

theorem addFirst_embed (hφ : Embeds φ) (E : Ensemble K) (a : Nd K) :
    addFirst (E.embed φ) (a.map φ) = (addFirst E a).map (Ensemble.embed φ) := by
  unfold addFirst
  simp only [Ensemble.embed]
  rw [map₂_embed fun x y => (hφ.add x y).symm, bind_map, map_bind]
  rfl

theorem addSecond_embed (hφ : Embeds φ) (E : Ensemble K) (a : Nd K) :
    addSecond (E.embed φ) (a.map φ) = (addSecond E a).map (Ensemble.embed φ) := by
  unfold addSecond
  simp only [Ensemble.embed]
  rw [map₂_embed fun x y => (hφ.add x y).symm, bind_map, map_bind]
  rfl

theorem addNorm_embed (hφ : Embeds φ) (E : Ensemble K) (a : Nd K) :
    addNorm (E.embed φ) (a.map φ) = (addNorm E a).map (Ensemble.embed φ) := by
  unfold addNorm
  simp only [Ensemble.embed]
  rw [map₂_embed fun x y => (hφ.add x y).symm, bind_map, map_bind]
  rfl

theorem Embeds.ne_zero (hφ : Embeds φ) (a : K) : φ a ≠ 0 ↔ a ≠ 0 := by rw [← hφ.zero, Ne, hφ.inj]

theorem Embeds.eq_zero (hφ : Embeds φ) (a : K) : φ a = 0 ↔ a = 0 := by rw [← hφ.zero, hφ.inj]

section

variable {pad : List (Nat × Nat)} {F G : Nd K} {Fm Gm : Nd Int} {E : Ensemble K} {x : List Int}

theorem bodyS2_embed (hφ : Embeds φ) :
    bodyS2 pad (F.map φ) (G.map φ) Fm Gm (E.embed φ) x = (bodyS2 pad F G Fm Gm E x).map (Ensemble.embed φ) := by
  unfold bodyS2
  rw [map_bind]
  congr 1
  funext m
  rw [map_if]
  split
  · rfl
  rw [view_embed, bind_map, map_bind]
  congr 1
  funext Gi
  rw [unmasked_embed hφ, bind_map, map_bind]
  congr 1
  funext Gmii
  rw [read_embed, bind_map, map_bind]
  congr 1
  funext fx
  simp only [hφ.ne_zero]
  rw [map₂_embed (g := fun g m => fx * g * m) fun x y => by rw [hφ.mul, hφ.mul]]
  split
  · simp only [addFirst_embed hφ, addNorm_embed hφ, map_bind, bind_map, bind_assoc]
  · simp only [pure_eq, ok_bind, addNorm_embed hφ]

theorem bodyC2_embed (hφ : Embeds φ) :
    bodyC2 pad (F.map φ) (G.map φ) Fm Gm (E.embed φ) x = (bodyC2 pad F G Fm Gm E x).map (Ensemble.embed φ) := by
  unfold bodyC2
  rw [map_bind]
  congr 1
  funext m
  rw [map_if]
  split
  · rfl
  rw [view_embed, bind_map, map_bind]
  congr 1
  funext Gi
  rw [unmasked_embed hφ, bind_map, map_bind]
  congr 1
  funext Gmii
  rw [read_embed, bind_map, map_bind]
  congr 1
  funext fx
  simp only [hφ.ne_zero]
  rw [map₂_embed (g := fun g m => if fx = g then m else 0) fun x y => by
    simp only [hφ.inj]; rw [apply_ite φ, hφ.zero]]
  split
  · simp only [addFirst_embed hφ, addNorm_embed hφ, map_bind, bind_map, bind_assoc]
  · simp only [pure_eq, ok_bind, addNorm_embed hφ]

theorem bodyW2_embed (hφ : Embeds φ) :
    bodyW2 pad (F.map φ) (G.map φ) Gm (E.embed φ) x = (bodyW2 pad F G Gm E x).map (Ensemble.embed φ) := by
  unfold bodyW2
  rw [view_embed, bind_map, map_bind]
  congr 1
  funext Gi
  rw [unmasked_embed hφ, bind_map, map_bind]
  congr 1
  funext Gmii
  rw [read_embed, bind_map, map_bind]
  congr 1
  funext fx
  simp only [hφ.ne_zero]
  rw [map₂_embed (g := fun g m => fx * g * m) fun x y => by rw [hφ.mul, hφ.mul]]
  have hm : (Gmii.map φ).map (fun m => φ fx * m) = (Gmii.map fun m => fx * m).map φ := by
    unfold Nd.map; simp only [hφ.mul]
  rw [hm]
  split
  · simp only [addFirst_embed hφ, addNorm_embed hφ, map_bind, bind_map, bind_assoc]
  · simp only [pure_eq, ok_bind, addNorm_embed hφ]

theorem bodyHH_embed (hφ : Embeds φ) :
    bodyHH pad (F.map φ) Fm (E.embed φ) x = (bodyHH pad F Fm E x).map (Ensemble.embed φ) := by
  unfold bodyHH
  rw [map_bind]
  congr 1
  funext m
  rw [map_if]
  split
  · rfl
  rw [view_embed, bind_map, map_bind]
  congr 1
  funext Fi
  rw [unmasked_embed hφ, bind_map, map_bind]
  congr 1
  funext Fmii
  rw [read_embed, bind_map, map_bind]
  congr 1
  funext fx
  rw [map₂_embed (g := fun g m => (g - fx) ^ 2 * m) fun x y => by rw [hφ.mul, hφ.pow, hφ.sub],
    map₂_embed (g := fun g m => (g - fx) ^ 4 * m) fun x y => by rw [hφ.mul, hφ.pow, hφ.sub]]
  rw [bind_map, map_bind]
  congr 1
  funext c1
  rw [addFirst_embed hφ, bind_map, map_bind]
  congr 1
  funext E1
  have : (E1.embed φ).variance = E1.variance := rfl
  rw [this]
  split
  · simp only [addSecond_embed hφ, addNorm_embed hφ, map_bind, bind_map, bind_assoc]
  · simp only [pure_eq, ok_bind, addNorm_embed hφ]

theorem walkL_embed (hφ : Embeds φ) : ∀ (path : List (List Int)) (E : Ensemble K),
    walkL pad (F.map φ) x path (E.embed φ) = (walkL pad F x path E).map (Ensemble.embed φ)
  | [], E => rfl
  | d :: path, E => by
    unfold walkL
    rw [read_embed, bind_map, map_bind]
    congr 1
    funext v
    simp only [hφ.eq_zero]
    rw [map_if]
    split
    · rfl
    have : (E.embed φ).first = E.first.map φ := rfl
    rw [this, ← hφ.one, addAt_embed hφ, bind_map, map_bind]
    congr 1
    funext first
    exact walkL_embed hφ path { E with first := first }

theorem stampL_embed (hφ : Embeds φ) {pathTo : List Int → Outcome (List (List Int))} {size : Nat} {s : List Int} :
    stampL pathTo pad (F.map φ) size (E.embed φ) s = (stampL pathTo pad F size E s).map (Ensemble.embed φ) := by
  unfold stampL
  rw [map_bind]
  congr 1
  funext path
  have hs : (F.map φ).shape = F.shape := rfl
  rw [hs, forM_embed (Ensemble.embed φ) (fun E x => walkL_embed hφ path E), bind_map, map_bind]
  congr 1
  funext E1
  refine forM_embed (Ensemble.embed φ) (fun E d => ?_) path E1
  have : (E.embed φ).norm = E.norm.map φ := rfl
  rw [this, ← hφ.nat, addAt_embed hφ, bind_map, map_bind]
  rfl

theorem walkW2c_embed (hφ : Embeds φ) {Cl : Nd Int} {label : Int} {path : List (List Int)} :
    ∀ (todo : List (List Int)) (q : Int) (E : Ensemble K),
    walkW2c pad (F.map φ) Fm Cl label x path todo q (E.embed φ) =
      (walkW2c pad F Fm Cl label x path todo q E).map (Ensemble.embed φ)
  | [], q, E => rfl
  | d :: todo, q, E => by
    unfold walkW2c
    rw [map_bind]
    congr 1
    funext c
    dsimp only
    generalize (if c ≠ label ∧ q < 0 then 0 else q) = q
    have key : ∀ (o : Outcome (Ensemble K)) (o' : Outcome (Ensemble S)), o' = o.map (Ensemble.embed φ) →
        (o' >>= fun E => walkW2c pad (F.map φ) Fm Cl label x path todo (q + 1) E) =
        (o >>= fun E => walkW2c pad F Fm Cl label x path todo (q + 1) E).map (Ensemble.embed φ) := by
      rintro o _ rfl
      rw [bind_map, map_bind]
      congr 1
      funext E1
      exact walkW2c_embed hφ todo (q + 1) E1
    split
    · apply key
      rw [map_bind]
      congr 1
      funext m
      rw [map_if]
      split
      · cases path[q.toNat]? with
        | none => rfl
        | some dq =>
          have h1 : (E.embed φ).norm = E.norm.map φ := rfl
          have h2 : (E.embed φ).first = E.first.map φ := rfl
          dsimp only
          rw [h1, h2, ← hφ.one, addAt_embed hφ, bind_map, map_bind]
          congr 1
          funext norm
          rw [read_embed, bind_map, map_bind]
          congr 1
          funext v
          rw [addAt_embed hφ, bind_map, map_bind]
          rfl
      · rfl
    · exact key _ _ rfl

theorem stampW2c_embed (hφ : Embeds φ) {pathTo : List Int → Outcome (List (List Int))} {Cl Ce : Nd Int} {s : List Int} :
    stampW2c pathTo pad (F.map φ) Fm Cl Ce (E.embed φ) s =
      (stampW2c pathTo pad F Fm Cl Ce E s).map (Ensemble.embed φ) := by
  unfold stampW2c
  rw [map_bind]
  congr 1
  funext path
  refine forM_embed (Ensemble.embed φ) (fun E x => ?_) _ E
  unfold bodyW2c
  rw [map_bind]
  congr 1
  funext label
  rw [map_if]
  split
  · rfl
  rw [map_bind]
  congr 1
  funext c
  rw [map_if]
  split
  · rfl
  exact walkW2c_embed hφ path (-1) E

end

/-! ### The measures -/

section

variable {E : Ensemble K} {f g : Nd K} {fm gm : Nd Int} {dbg : Bool}

theorem S2_embed (hφ : Embeds φ) :
    Ens.S2 dbg (E.embed φ) (f.map φ) (g.map φ) fm gm = (Ens.S2 dbg E f g fm gm).map (Ensemble.embed φ) := by
  unfold Ens.S2
  simp only [map_bind]
  iterate 7 (refine congrArg _ (funext fun _ => ?_))
  dsimp only [Ensemble.embed]
  rw [pad_embed hφ, bind_map]
  refine congrArg _ (funext fun F => ?_)
  rw [pad_embed hφ, bind_map]
  refine congrArg _ (funext fun G => ?_)
  iterate 2 (refine congrArg _ (funext fun _ => ?_))
  exact forM_embed (Ensemble.embed φ) (fun E x => bodyS2_embed hφ) _ { E with stat := .S2 }

theorem C2_embed (hφ : Embeds φ) :
    Ens.C2 dbg (E.embed φ) (f.map φ) (g.map φ) fm gm = (Ens.C2 dbg E f g fm gm).map (Ensemble.embed φ) := by
  unfold Ens.C2
  simp only [map_bind]
  iterate 7 (refine congrArg _ (funext fun _ => ?_))
  dsimp only [Ensemble.embed]
  rw [pad_embed hφ, bind_map]
  refine congrArg _ (funext fun F => ?_)
  rw [pad_embed hφ, bind_map]
  refine congrArg _ (funext fun G => ?_)
  iterate 2 (refine congrArg _ (funext fun _ => ?_))
  exact forM_embed (Ensemble.embed φ) (fun E x => bodyC2_embed hφ) _ { E with stat := .C2 }

theorem W2_embed (hφ : Embeds φ) :
    Ens.W2 dbg (E.embed φ) (f.map φ) (g.map φ) gm = (Ens.W2 dbg E f g gm).map (Ensemble.embed φ) := by
  unfold Ens.W2
  simp only [map_bind]
  iterate 5 (refine congrArg _ (funext fun _ => ?_))
  dsimp only [Ensemble.embed]
  rw [pad_embed hφ, bind_map]
  refine congrArg _ (funext fun F => ?_)
  rw [pad_embed hφ, bind_map]
  refine congrArg _ (funext fun G => ?_)
  iterate 1 (refine congrArg _ (funext fun _ => ?_))
  exact forM_embed (Ensemble.embed φ) (fun E x => bodyW2_embed hφ) _ { E with stat := .W2 }

theorem HH_embed (hφ : Embeds φ) :
    Ens.heightheight dbg (E.embed φ) (f.map φ) fm = (Ens.heightheight dbg E f fm).map (Ensemble.embed φ) := by
  unfold Ens.heightheight
  simp only [map_bind]
  iterate 4 (refine congrArg _ (funext fun _ => ?_))
  dsimp only [Ensemble.embed]
  rw [pad_embed hφ, bind_map]
  refine congrArg _ (funext fun F => ?_)
  iterate 1 (refine congrArg _ (funext fun _ => ?_))
  exact forM_embed (Ensemble.embed φ) (fun E x => bodyHH_embed hφ) _ { E with stat := .heightheight }

theorem L_embed (hφ : Embeds φ) {junk : P} {fuel : Nat} {mode : Path.Mode} :
    Ens.L dbg junk fuel (E.embed φ) (f.map φ) mode = (Ens.L dbg junk fuel E f mode).map (Ensemble.embed φ) := by
  unfold Ens.L
  simp only [map_bind]
  iterate 2 (refine congrArg _ (funext fun _ => ?_))
  dsimp only [Ensemble.embed]
  rw [pad_embed hφ, bind_map]
  refine congrArg _ (funext fun F => ?_)
  exact forM_embed (Ensemble.embed φ) (fun E x => stampL_embed hφ) _ { E with stat := .L }

theorem W2c_embed (hφ : Embeds φ) {junk : P} {fuel : Nat} {mode : Path.Mode} {cl ce : Nd Int} :
    Ens.W2c dbg junk fuel (E.embed φ) cl ce (f.map φ) fm mode =
      (Ens.W2c dbg junk fuel E cl ce f fm mode).map (Ensemble.embed φ) := by
  unfold Ens.W2c
  simp only [map_bind]
  iterate 6 (refine congrArg _ (funext fun _ => ?_))
  dsimp only [Ensemble.embed]
  rw [pad_embed hφ, bind_map]
  refine congrArg _ (funext fun F => ?_)
  iterate 3 (refine congrArg _ (funext fun _ => ?_))
  exact forM_embed (Ensemble.embed φ) (fun E x => stampW2c_embed hφ) _ { E with stat := .W2c }

theorem sum_embed (hφ : Embeds φ) (a : Nd K) : (a.map φ).sum = φ a.sum := by
  have : ∀ l : List K, (l.map φ).sum = φ l.sum := by
    intro l
    induction l with
    | nil => exact hφ.zero.symm
    | cons x l ih => rw [List.map_cons, List.sum_cons, List.sum_cons, ih, hφ.add]
  unfold Nd.sum Nd.toList
  rw [← this, List.map_map]
  rfl

theorem mean_embed (hφ : Embeds φ) :
    Ens.mean dbg (E.embed φ) (f.map φ) = (Ens.mean dbg E f).map (Ensemble.embed φ) := by
  unfold Ens.mean addTo0
  simp only [map_bind]
  iterate 2 (refine congrArg _ (funext fun _ => ?_))
  dsimp only [Ensemble.embed]
  have h2 : (f.map φ).map (fun x => x ^ 2) = (f.map fun x => x ^ 2).map φ := by
    unfold Nd.map; simp only [hφ.pow]
  have h3 : (f.map φ).size = f.size := rfl
  rw [h2, h3, sum_embed hφ, sum_embed hφ, ← hφ.nat, addAt_embed hφ, addAt_embed hφ, addAt_embed hφ, bind_map]
  refine congrArg _ (funext fun _ => ?_)
  rw [bind_map]
  refine congrArg _ (funext fun _ => ?_)
  rw [bind_map]
  rfl

theorem map₂_mask {m : Nd Int} {a : Nd K} {g : Int → K → K} {g' : Int → S → S} (h : ∀ m x, g' m (φ x) = φ (g m x)) :
    map₂ g' m (a.map φ) = (map₂ g m a).map (Nd.map φ) := by
  unfold Nd.map₂ Nd.map
  simp only [map_if, map_ok, h]
  rfl

theorem meanMask_embed (hφ : Embeds φ) :
    Ens.meanMask dbg (E.embed φ) (f.map φ) fm = (Ens.meanMask dbg E f fm).map (Ensemble.embed φ) := by
  unfold Ens.meanMask addTo0
  simp only [map_bind]
  iterate 4 (refine congrArg _ (funext fun _ => ?_))
  dsimp only [Ensemble.embed]
  have h3 : (fm.map fun m => ((1 - m : Int) : S)) = (fm.map fun m => ((1 - m : Int) : K)).map φ := by
    unfold Nd.map; simp only [hφ.int]
  rw [h3, sum_embed hφ, addAt_embed hφ,
    map₂_mask (g := fun (m : Int) x => if m = 0 then x else 0) fun m x => by rw [apply_ite φ, hφ.zero],
    map₂_mask (g := fun (m : Int) x => if m = 0 then x ^ 2 else 0) fun m x => by rw [apply_ite φ, hφ.zero, hφ.pow],
    bind_map]
  refine congrArg _ (funext fun _ => ?_)
  rw [sum_embed hφ, addAt_embed hφ, bind_map]
  refine congrArg _ (funext fun _ => ?_)
  rw [bind_map]
  refine congrArg _ (funext fun _ => ?_)
  rw [sum_embed hφ, addAt_embed hφ, bind_map]
  refine congrArg _ (funext fun _ => ?_)
  rw [bind_map]
  rfl

end

theorem make_embed (hφ : Embeds φ) (dbg : Bool) (roi : List Nat) (periodic variance : Bool) :
    make S dbg roi periodic variance = (make K dbg roi periodic variance).map (Ensemble.embed φ) := by
  unfold make
  rw [map_bind]
  refine congrArg _ (funext fun _ => ?_)
  rw [map_if]
  split
  · rfl
  · simp only [pure_eq, map_ok, Ensemble.embed, Nd.map, Nd.fill, Nd.atleast3d, hφ.zero]

end Verif.Ens

namespace Verif.Props

open Verif Outcome Ens

/-- The realisation with the values of its images embedded; masks and labels are integers. -/
def Realisation.embed {K S : Type} (φ : K → S) : Realisation K → Realisation S
  | .mean f m => .mean (f.map φ) m
  | .S2 f g m => .S2 (f.map φ) (g.map φ) m
  | .C2 f g m => .C2 (f.map φ) (g.map φ) m
  | .W2 w f m => .W2 (w.map φ) (f.map φ) m
  | .W2c cl ce f m mode => .W2c cl ce (f.map φ) m mode
  | .heightheight f m => .heightheight (f.map φ) m
  | .L f mode => .L (f.map φ) mode

variable {K S : Type}
  [Zero K] [One K] [Add K] [Sub K] [Neg K] [Mul K] [Div K] [Pow K Nat] [NatCast K] [IntCast K] [LE K]
  [DecidableLE K] [Max K] [DecidableEq K]
  [Zero S] [One S] [Add S] [Sub S] [Neg S] [Mul S] [Div S] [Pow S Nat] [NatCast S] [IntCast S] [LE S]
  [DecidableLE S] [Max S] [DecidableEq S]
variable {P : Type} [Zero P] [One P] [Add P] [Sub P] [Neg P] [Mul P] [Div P] [NatCast P] [IntCast P] [DecidableEq P]
  [LT P] [DecidableLT P] {φ : K → S}

theorem call_embed (hφ : Embeds φ) (junk : P) (fuel : Nat) (dbg : Bool) (E : Ensemble K) (r : Realisation K) :
    (r.embed φ).call junk fuel dbg (E.embed φ) = (r.call junk fuel dbg E).map (Ensemble.embed φ) := by
  cases r with
  | mean f m => cases m; exacts [mean_embed hφ, meanMask_embed hφ]
  | S2 f g m => cases m; exacts [S2_embed hφ, S2_embed hφ]
  | C2 f g m => cases m; exacts [C2_embed hφ, C2_embed hφ]
  | W2 w f m => cases m; exacts [W2_embed hφ, W2_embed hφ]
  | W2c cl ce f m mode => cases m; exacts [W2c_embed hφ, W2c_embed hφ]
  | heightheight f m => cases m; exacts [HH_embed hφ, HH_embed hφ]
  | L f mode => exact L_embed hφ

theorem history_embed (hφ : Embeds φ) (dbg : Bool) (junk : P) (fuel : Nat) (roi : List Nat) (periodic variance : Bool)
    (l : List (Realisation K)) :
    history dbg junk fuel roi periodic variance (l.map (Realisation.embed φ)) =
      (history dbg junk fuel roi periodic variance l).map (Ensemble.embed φ) := by
  unfold history
  rw [make_embed hφ, bind_map, map_bind]
  refine congrArg _ (funext fun E => ?_)
  have : ∀ (l : List (Realisation K)) (E : Ensemble K),
      forM (l.map (Realisation.embed φ)) (E.embed φ) (fun E r => r.call junk fuel dbg E) =
      (forM l E fun E r => r.call junk fuel dbg E).map (Ensemble.embed φ) := by
    intro l
    induction l with
    | nil => intro E; rfl
    | cons r l ih =>
      intro E
      rw [List.map_cons]
      unfold forM
      rw [call_embed hφ]
      cases r.call junk fuel dbg E with
      | ok E' => exact ih E'
      | throws => rfl
      | ub => rfl
      | diverge => rfl
  exact this l E

end Verif.Props
