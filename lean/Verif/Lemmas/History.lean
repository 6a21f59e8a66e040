import Verif.Lemmas.Moments

/-! # What every completed call leaves unchanged, whatever its arguments -/

set_option linter.unusedSectionVars false

namespace Verif.Ens

open Verif Outcome Spec Cluster Nd

variable {K : Type} [Field K] [LinearOrder K] [IsStrictOrderedRing K]

theorem bind_eq_ok {α β : Type} {x : Outcome α} {f : α → Outcome β} {b : β} :
    (x >>= f) = ok b ↔ ∃ a, x = ok a ∧ f a = ok b := by
  cases x <;> simp

theorem forM_inv {σ α : Type} {R : σ → σ → Prop} (hrefl : ∀ s, R s s)
    (htrans : ∀ a b c, R a b → R b c → R a c) {f : σ → α → Outcome σ}
    (h : ∀ s x s', f s x = ok s' → R s s') :
    ∀ {l : List α} {s s' : σ}, forM l s f = ok s' → R s s'
  | [], s, s', e => by
    cases e
    exact hrefl s
  | x :: l, s, s', e => by
    obtain ⟨t, e1, e2⟩ := bind_eq_ok.1 (show (f s x >>= fun t => forM l t f) = ok s' from e)
    exact htrans _ _ _ (h _ _ _ e1) (forM_inv hrefl htrans h e2)

/-- All but the values of the accumulators is the same. -/
structure Keeps (E E' : Ensemble K) : Prop where
  stat : E'.stat = E.stat
  periodic : E'.periodic = E.periodic
  variance : E'.variance = E.variance
  first : E'.first.shape = E.first.shape
  second : E'.second.shape = E.second.shape
  norm : E'.norm.shape = E.norm.shape
  shapeOrig : E'.shapeOrig = E.shapeOrig
  shape : E'.shape = E.shape
  pad : E'.pad = E.pad

theorem Keeps.refl (E : Ensemble K) : Keeps E E := ⟨rfl, rfl, rfl, rfl, rfl, rfl, rfl, rfl, rfl⟩

theorem Keeps.trans {E E' E'' : Ensemble K} (h : Keeps E E') (h' : Keeps E' E'') : Keeps E E'' :=
  ⟨h'.1.trans h.1, h'.2.trans h.2, h'.3.trans h.3, h'.4.trans h.4, h'.5.trans h.5, h'.6.trans h.6,
    h'.7.trans h.7, h'.8.trans h.8, h'.9.trans h.9⟩

theorem forM_keeps {α : Type} {f : Ensemble K → α → Outcome (Ensemble K)}
    (h : ∀ E x E', f E x = ok E' → Keeps E E') {l : List α} {E E' : Ensemble K}
    (e : forM l E f = ok E') : Keeps E E' :=
  forM_inv (R := Keeps) Keeps.refl (fun _ _ _ => Keeps.trans) h e

theorem map₂_shape {α β γ : Type} {φ : α → β → γ} {a : Nd α} {b : Nd β} {c : Nd γ}
    (h : map₂ φ a b = ok c) : c.shape = a.shape := by
  unfold map₂ at h
  split at h
  · cases h; rfl
  · cases h

theorem addAt_shape {a b : Nd K} {x : List Int} {v : K} (h : a.addAt x v = ok b) : b.shape = a.shape := by
  unfold Nd.addAt at h
  split at h
  · cases h; rfl
  · cases h

theorem addFirst_keeps {E E' : Ensemble K} {a : Nd K} (h : addFirst E a = ok E') : Keeps E E' := by
  obtain ⟨b, h1, h2⟩ := bind_eq_ok.1 h
  cases h2
  exact ⟨rfl, rfl, rfl, map₂_shape h1, rfl, rfl, rfl, rfl, rfl⟩

theorem addSecond_keeps {E E' : Ensemble K} {a : Nd K} (h : addSecond E a = ok E') : Keeps E E' := by
  obtain ⟨b, h1, h2⟩ := bind_eq_ok.1 h
  cases h2
  exact ⟨rfl, rfl, rfl, rfl, map₂_shape h1, rfl, rfl, rfl, rfl⟩

theorem addNorm_keeps {E E' : Ensemble K} {a : Nd K} (h : addNorm E a = ok E') : Keeps E E' := by
  obtain ⟨b, h1, h2⟩ := bind_eq_ok.1 h
  cases h2
  exact ⟨rfl, rfl, rfl, rfl, rfl, map₂_shape h1, rfl, rfl, rfl⟩

theorem bodyS2_keeps {pad : List (Nat × Nat)} {F G : Nd K} {Fm Gm : Nd Int} {E E' : Ensemble K}
    {x : List Int} (h : bodyS2 pad F G Fm Gm E x = ok E') : Keeps E E' := by
  obtain ⟨m, -, h⟩ := bind_eq_ok.1 h
  split at h
  · cases h; exact .refl E
  obtain ⟨_, -, h⟩ := bind_eq_ok.1 h
  obtain ⟨_, -, h⟩ := bind_eq_ok.1 h
  obtain ⟨_, -, h⟩ := bind_eq_ok.1 h
  dsimp only at h
  split at h
  · obtain ⟨E1, h1, h⟩ := bind_eq_ok.1 h
    obtain ⟨_, -, h1⟩ := bind_eq_ok.1 h1
    exact (addFirst_keeps h1).trans (addNorm_keeps h)
  · exact addNorm_keeps h

theorem bodyC2_keeps {pad : List (Nat × Nat)} {F G : Nd K} {Fm Gm : Nd Int} {E E' : Ensemble K}
    {x : List Int} (h : bodyC2 pad F G Fm Gm E x = ok E') : Keeps E E' := by
  obtain ⟨m, -, h⟩ := bind_eq_ok.1 h
  split at h
  · cases h; exact .refl E
  obtain ⟨_, -, h⟩ := bind_eq_ok.1 h
  obtain ⟨_, -, h⟩ := bind_eq_ok.1 h
  obtain ⟨_, -, h⟩ := bind_eq_ok.1 h
  dsimp only at h
  split at h
  · obtain ⟨E1, h1, h⟩ := bind_eq_ok.1 h
    obtain ⟨_, -, h1⟩ := bind_eq_ok.1 h1
    exact (addFirst_keeps h1).trans (addNorm_keeps h)
  · exact addNorm_keeps h

theorem bodyW2_keeps {pad : List (Nat × Nat)} {F G : Nd K} {Gm : Nd Int} {E E' : Ensemble K}
    {x : List Int} (h : bodyW2 pad F G Gm E x = ok E') : Keeps E E' := by
  obtain ⟨_, -, h⟩ := bind_eq_ok.1 h
  obtain ⟨_, -, h⟩ := bind_eq_ok.1 h
  obtain ⟨_, -, h⟩ := bind_eq_ok.1 h
  dsimp only at h
  split at h
  · obtain ⟨E1, h1, h⟩ := bind_eq_ok.1 h
    obtain ⟨_, -, h1⟩ := bind_eq_ok.1 h1
    exact (addFirst_keeps h1).trans (addNorm_keeps h)
  · exact addNorm_keeps h

theorem bodyHH_keeps {pad : List (Nat × Nat)} {F : Nd K} {Fm : Nd Int} {E E' : Ensemble K}
    {x : List Int} (h : bodyHH pad F Fm E x = ok E') : Keeps E E' := by
  obtain ⟨m, -, h⟩ := bind_eq_ok.1 h
  split at h
  · cases h; exact .refl E
  obtain ⟨_, -, h⟩ := bind_eq_ok.1 h
  obtain ⟨_, -, h⟩ := bind_eq_ok.1 h
  obtain ⟨_, -, h⟩ := bind_eq_ok.1 h
  obtain ⟨_, -, h⟩ := bind_eq_ok.1 h
  obtain ⟨E1, h1, h⟩ := bind_eq_ok.1 h
  dsimp only at h
  split at h
  · obtain ⟨E2, h2, h⟩ := bind_eq_ok.1 h
    obtain ⟨_, -, h2⟩ := bind_eq_ok.1 h2
    exact ((addFirst_keeps h1).trans (addSecond_keeps h2)).trans (addNorm_keeps h)
  · exact (addFirst_keeps h1).trans (addNorm_keeps h)

theorem walkL_keeps {pad : List (Nat × Nat)} {F : Nd K} {x : List Int} :
    ∀ {path : List (List Int)} {E E' : Ensemble K}, walkL pad F x path E = ok E' → Keeps E E'
  | [], E, E', h => by cases h; exact .refl _
  | d :: path, E, E', h => by
    obtain ⟨v, -, h⟩ := bind_eq_ok.1 h
    split at h
    · cases h; exact .refl _
    obtain ⟨a, h1, h⟩ := bind_eq_ok.1 h
    exact Keeps.trans (E' := { E with first := a })
      ⟨rfl, rfl, rfl, addAt_shape h1, rfl, rfl, rfl, rfl, rfl⟩ (walkL_keeps h)

theorem stampL_keeps {pathTo : List Int → Outcome (List (List Int))} {pad : List (Nat × Nat)} {F : Nd K}
    {size : Nat} {E E' : Ensemble K} {s : List Int} (h : stampL pathTo pad F size E s = ok E') :
    Keeps E E' := by
  obtain ⟨path, -, h⟩ := bind_eq_ok.1 h
  obtain ⟨E1, h1, h⟩ := bind_eq_ok.1 h
  refine (forM_keeps (fun _ _ _ e => walkL_keeps e) h1).trans (forM_keeps (fun _ _ _ e => ?_) h)
  obtain ⟨a, h1, h⟩ := bind_eq_ok.1 e
  cases h
  exact ⟨rfl, rfl, rfl, rfl, rfl, addAt_shape h1, rfl, rfl, rfl⟩

theorem walkW2c_keeps {pad : List (Nat × Nat)} {F : Nd K} {Fm C : Nd Int} {label : Int} {x : List Int}
    {path : List (List Int)} : ∀ {todo : List (List Int)} {q : Int} {E E' : Ensemble K},
    walkW2c pad F Fm C label x path todo q E = ok E' → Keeps E E'
  | [], q, E, E', h => by cases h; exact .refl _
  | d :: todo, q, E, E', h => by
    obtain ⟨c, -, h⟩ := bind_eq_ok.1 h
    dsimp only at h
    generalize (if c ≠ label ∧ q < 0 then 0 else q) = q' at h
    split at h
    · obtain ⟨E1, h1, h⟩ := bind_eq_ok.1 h
      refine Keeps.trans ?_ (walkW2c_keeps h)
      obtain ⟨m, -, h1⟩ := bind_eq_ok.1 h1
      split at h1
      · split at h1
        · cases h1
        · obtain ⟨a, ha, h1⟩ := bind_eq_ok.1 h1
          obtain ⟨v, -, h1⟩ := bind_eq_ok.1 h1
          obtain ⟨b, hb, h1⟩ := bind_eq_ok.1 h1
          cases h1
          exact ⟨rfl, rfl, rfl, addAt_shape hb, rfl, addAt_shape ha, rfl, rfl, rfl⟩
      · cases h1; exact .refl _
    · exact walkW2c_keeps h

theorem stampW2c_keeps {pathTo : List Int → Outcome (List (List Int))} {pad : List (Nat × Nat)} {F : Nd K}
    {Fm Cl Ce : Nd Int} {E E' : Ensemble K} {s : List Int}
    (h : stampW2c pathTo pad F Fm Cl Ce E s = ok E') : Keeps E E' := by
  obtain ⟨path, -, h⟩ := bind_eq_ok.1 h
  refine forM_keeps (fun E x E' e => ?_) h
  obtain ⟨l, -, e⟩ := bind_eq_ok.1 e
  split at e
  · cases e; exact .refl _
  obtain ⟨c, -, e⟩ := bind_eq_ok.1 e
  split at e
  · cases e; exact .refl _
  · exact walkW2c_keeps e

theorem gassert_ok {dbg c : Bool} {u : Unit} (h : gassert dbg c = ok u) : dbg = true → c = true := by
  rintro rfl
  cases c
  · cases h
  · rfl

/-- What a completed call of a measure does to the state. -/
structure Locks (dbg : Bool) (st : Stat) (E E' : Ensemble K) : Prop where
  before : dbg = true → E.stat = st ∨ E.stat = .unset
  after : Keeps { E with stat := st } E'

theorem S2_locks {dbg : Bool} {E E' : Ensemble K} {f g : Nd K} {fm gm : Nd Int}
    (h : S2 dbg E f g fm gm = ok E') : Locks dbg .S2 E E' := by
  obtain ⟨_, -, h⟩ := bind_eq_ok.1 h
  obtain ⟨_, -, h⟩ := bind_eq_ok.1 h
  obtain ⟨_, -, h⟩ := bind_eq_ok.1 h
  obtain ⟨_, -, h⟩ := bind_eq_ok.1 h
  obtain ⟨_, -, h⟩ := bind_eq_ok.1 h
  obtain ⟨_, -, h⟩ := bind_eq_ok.1 h
  obtain ⟨_, h1, h⟩ := bind_eq_ok.1 h
  obtain ⟨_, -, h⟩ := bind_eq_ok.1 h
  obtain ⟨_, -, h⟩ := bind_eq_ok.1 h
  obtain ⟨_, -, h⟩ := bind_eq_ok.1 h
  obtain ⟨_, -, h⟩ := bind_eq_ok.1 h
  exact ⟨fun hd => by simpa using gassert_ok h1 hd, forM_keeps (fun _ _ _ e => bodyS2_keeps e) h⟩

theorem C2_locks {dbg : Bool} {E E' : Ensemble K} {f g : Nd K} {fm gm : Nd Int}
    (h : C2 dbg E f g fm gm = ok E') : Locks dbg .C2 E E' := by
  obtain ⟨_, -, h⟩ := bind_eq_ok.1 h
  obtain ⟨_, -, h⟩ := bind_eq_ok.1 h
  obtain ⟨_, -, h⟩ := bind_eq_ok.1 h
  obtain ⟨_, -, h⟩ := bind_eq_ok.1 h
  obtain ⟨_, -, h⟩ := bind_eq_ok.1 h
  obtain ⟨_, -, h⟩ := bind_eq_ok.1 h
  obtain ⟨_, h1, h⟩ := bind_eq_ok.1 h
  obtain ⟨_, -, h⟩ := bind_eq_ok.1 h
  obtain ⟨_, -, h⟩ := bind_eq_ok.1 h
  obtain ⟨_, -, h⟩ := bind_eq_ok.1 h
  obtain ⟨_, -, h⟩ := bind_eq_ok.1 h
  exact ⟨fun hd => by simpa using gassert_ok h1 hd, forM_keeps (fun _ _ _ e => bodyC2_keeps e) h⟩

theorem W2_locks {dbg : Bool} {E E' : Ensemble K} {f g : Nd K} {gm : Nd Int}
    (h : W2 dbg E f g gm = ok E') : Locks dbg .W2 E E' := by
  obtain ⟨_, -, h⟩ := bind_eq_ok.1 h
  obtain ⟨_, -, h⟩ := bind_eq_ok.1 h
  obtain ⟨_, -, h⟩ := bind_eq_ok.1 h
  obtain ⟨_, -, h⟩ := bind_eq_ok.1 h
  obtain ⟨_, h1, h⟩ := bind_eq_ok.1 h
  obtain ⟨_, -, h⟩ := bind_eq_ok.1 h
  obtain ⟨_, -, h⟩ := bind_eq_ok.1 h
  obtain ⟨_, -, h⟩ := bind_eq_ok.1 h
  exact ⟨fun hd => by simpa using gassert_ok h1 hd, forM_keeps (fun _ _ _ e => bodyW2_keeps e) h⟩

theorem HH_locks {dbg : Bool} {E E' : Ensemble K} {f : Nd K} {fm : Nd Int}
    (h : heightheight dbg E f fm = ok E') : Locks dbg .heightheight E E' := by
  obtain ⟨_, -, h⟩ := bind_eq_ok.1 h
  obtain ⟨_, -, h⟩ := bind_eq_ok.1 h
  obtain ⟨_, -, h⟩ := bind_eq_ok.1 h
  obtain ⟨_, h1, h⟩ := bind_eq_ok.1 h
  obtain ⟨_, -, h⟩ := bind_eq_ok.1 h
  obtain ⟨_, -, h⟩ := bind_eq_ok.1 h
  exact ⟨fun hd => by simpa using gassert_ok h1 hd, forM_keeps (fun _ _ _ e => bodyHH_keeps e) h⟩

theorem L_locks {dbg : Bool} {junk : ℚ} {fuel : Nat} {E E' : Ensemble K} {f : Nd K} {mode : Path.Mode}
    (h : L dbg junk fuel E f mode = ok E') : Locks dbg .L E E' := by
  obtain ⟨_, -, h⟩ := bind_eq_ok.1 h
  obtain ⟨_, h1, h⟩ := bind_eq_ok.1 h
  obtain ⟨_, -, h⟩ := bind_eq_ok.1 h
  exact ⟨fun hd => by simpa using gassert_ok h1 hd, forM_keeps (fun _ _ _ e => stampL_keeps e) h⟩

theorem W2c_locks {dbg : Bool} {junk : ℚ} {fuel : Nat} {E E' : Ensemble K} {f : Nd K}
    {cl ce fm : Nd Int} {mode : Path.Mode}
    (h : W2c dbg junk fuel E cl ce f fm mode = ok E') : Locks dbg .W2c E E' := by
  obtain ⟨_, -, h⟩ := bind_eq_ok.1 h
  obtain ⟨_, -, h⟩ := bind_eq_ok.1 h
  obtain ⟨_, -, h⟩ := bind_eq_ok.1 h
  obtain ⟨_, -, h⟩ := bind_eq_ok.1 h
  obtain ⟨_, -, h⟩ := bind_eq_ok.1 h
  obtain ⟨_, h1, h⟩ := bind_eq_ok.1 h
  obtain ⟨_, -, h⟩ := bind_eq_ok.1 h
  obtain ⟨_, -, h⟩ := bind_eq_ok.1 h
  obtain ⟨_, -, h⟩ := bind_eq_ok.1 h
  obtain ⟨_, -, h⟩ := bind_eq_ok.1 h
  exact ⟨fun hd => by simpa using gassert_ok h1 hd, forM_keeps (fun _ _ _ e => stampW2c_keeps e) h⟩

theorem mean_locks {dbg : Bool} {E E' : Ensemble K} {f : Nd K} (h : mean dbg E f = ok E') :
    Locks dbg .mean E E' := by
  obtain ⟨_, -, h⟩ := bind_eq_ok.1 h
  obtain ⟨_, h1, h⟩ := bind_eq_ok.1 h
  obtain ⟨_, ha, h⟩ := bind_eq_ok.1 h
  obtain ⟨_, hb, h⟩ := bind_eq_ok.1 h
  obtain ⟨_, hc, h⟩ := bind_eq_ok.1 h
  cases h
  exact ⟨fun hd => by simpa using gassert_ok h1 hd,
    ⟨rfl, rfl, rfl, addAt_shape ha, addAt_shape hb, addAt_shape hc, rfl, rfl, rfl⟩⟩

theorem meanMask_locks {dbg : Bool} {E E' : Ensemble K} {f : Nd K} {m : Nd Int}
    (h : meanMask dbg E f m = ok E') : Locks dbg .mean E E' := by
  obtain ⟨_, -, h⟩ := bind_eq_ok.1 h
  obtain ⟨_, -, h⟩ := bind_eq_ok.1 h
  obtain ⟨_, -, h⟩ := bind_eq_ok.1 h
  obtain ⟨_, h1, h⟩ := bind_eq_ok.1 h
  obtain ⟨_, -, h⟩ := bind_eq_ok.1 h
  obtain ⟨_, ha, h⟩ := bind_eq_ok.1 h
  obtain ⟨_, -, h⟩ := bind_eq_ok.1 h
  obtain ⟨_, hb, h⟩ := bind_eq_ok.1 h
  obtain ⟨_, hc, h⟩ := bind_eq_ok.1 h
  cases h
  exact ⟨fun hd => by simpa using gassert_ok h1 hd,
    ⟨rfl, rfl, rfl, addAt_shape ha, addAt_shape hb, addAt_shape hc, rfl, rfl, rfl⟩⟩

theorem Keeps.good {roi : List Nat} {periodic variance : Bool} {E E' : Ensemble K} (h : Keeps E E')
    (hE : Good roi periodic variance E) : Good roi periodic variance E' :=
  ⟨h.periodic.trans hE.periodic, h.variance.trans hE.variance, h.first.trans hE.first,
    h.second.trans hE.second, h.norm.trans hE.norm, h.shapeOrig.trans hE.shapeOrig,
    h.shape.trans hE.shape, h.pad.trans hE.pad⟩

/-- The variance of any ensemble. -/
theorem variance_good {roi : List Nat} {periodic variance : Bool} {E : Ensemble K}
    (h : Good roi periodic variance E) (pow05 : K → K) :
    varianceResult pow05 E = if E.stat = .heightheight ∨ E.stat = .mean then ok ⟨roi, fun k =>
      let v := varianceOf (E.first.get k) (E.second.get k) (E.norm.get k)
      if E.stat = .heightheight then pow05 v else v⟩ else throws := by
  simp only [varianceResult, Nd.map₂, h.first, h.second, h.norm, if_true, ok_bind, h.shapeOrig, pure_eq,
    Nd.reshape]
  by_cases hs : E.stat = .heightheight
  · simp [hs, Nd.map]
  · by_cases hm : E.stat = .mean <;> simp [hs, hm]

end Verif.Ens
