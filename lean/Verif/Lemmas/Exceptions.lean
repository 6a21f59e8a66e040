import Verif.Model.Exceptions

/-!
# Lemmas: the only exceptions are those of the assertions

The loops of the measures and of the labeller do not throw; the programs of `Model/Exceptions.lean` end as the
functions of the other models.
-/

set_option linter.unusedSectionVars false

namespace Verif

open Outcome

/-- No exception. -/
def NoThrow {α : Type u} (x : Outcome α) : Prop := x ≠ throws

theorem nothrow_ok {α : Type u} (a : α) : NoThrow (ok a) := by simp [NoThrow]
theorem nothrow_pure {α : Type u} (a : α) : NoThrow (pure a : Outcome α) := by simp [NoThrow]
theorem nothrow_ub {α : Type u} : NoThrow (ub : Outcome α) := by simp [NoThrow]
theorem nothrow_diverge {α : Type u} : NoThrow (diverge : Outcome α) := by simp [NoThrow]

theorem nothrow_bind {α : Type u} {β : Type v} {x : Outcome α} {f : α → Outcome β} (hx : NoThrow x)
    (hf : ∀ a, NoThrow (f a)) : NoThrow (x.bind f) := by
  cases x with
  | ok a => exact hf a
  | throws => exact absurd rfl hx
  | ub => exact nothrow_ub
  | diverge => exact nothrow_diverge

theorem nothrow_do {α β : Type u} {x : Outcome α} {f : α → Outcome β} (hx : NoThrow x)
    (hf : ∀ a, NoThrow (f a)) : NoThrow (x >>= f) := nothrow_bind hx hf

theorem nothrow_map {α : Type u} {β : Type v} {x : Outcome α} (f : α → β) (hx : NoThrow x) : NoThrow (x.map f) := by
  cases x with
  | ok a => exact nothrow_ok _
  | throws => exact absurd rfl hx
  | ub => exact nothrow_ub
  | diverge => exact nothrow_diverge

theorem nothrow_ite {α : Type u} {c : Prop} [Decidable c] {x y : Outcome α} (hx : NoThrow x) (hy : NoThrow y) :
    NoThrow (if c then x else y) := by split <;> assumption

theorem nothrow_forM {σ : Type u} {α : Type v} {f : σ → α → Outcome σ} (hf : ∀ s a, NoThrow (f s a)) (l : List α) :
    ∀ s, NoThrow (forM l s f) := by
  induction l with
  | nil => intro s; exact nothrow_ok s
  | cons a l ih => intro s; exact nothrow_bind (hf s a) ih

/-! ### arrays -/

theorem nothrow_vread {α : Type u} (v : Vec α) (i : Int) : NoThrow (v.read i) :=
  nothrow_ite (nothrow_ok _) nothrow_ub
theorem nothrow_vwrite {α : Type u} (v : Vec α) (i : Int) (a : α) : NoThrow (v.write i a) :=
  nothrow_ite (nothrow_ok _) nothrow_ub
theorem nothrow_read {α : Type u} (a : Nd α) (x : List Int) : NoThrow (a.read x) :=
  nothrow_ite (nothrow_ok _) nothrow_ub
theorem nothrow_addAt {α : Type u} [Add α] (a : Nd α) (x : List Int) (v : α) : NoThrow (a.addAt x v) :=
  nothrow_ite (nothrow_ok _) nothrow_ub
theorem nothrow_map₂ {α : Type u} {β : Type v} {γ : Type w} (φ : α → β → γ) (a : Nd α) (b : Nd β) :
    NoThrow (Nd.map₂ φ a b) := nothrow_ite (nothrow_ok _) nothrow_ub
theorem nothrow_pad {α : Type u} (a : Nd α) (w : List (Nat × Nat)) (m : Nd.PadMode) (v : α) :
    NoThrow (a.pad w m v) := nothrow_ite nothrow_ub (nothrow_ite nothrow_ub (nothrow_ok _))
theorem nothrow_view {α : Type u} (a : Nd α) (r : List (Int × Int)) : NoThrow (a.view r) :=
  nothrow_ite nothrow_ub (nothrow_ite nothrow_ub (nothrow_ok _))

/-! ### paths -/

namespace Path

variable {K : Type} [Zero K] [One K] [Add K] [Sub K] [Neg K] [Mul K] [Div K] [NatCast K] [IntCast K]
  [DecidableEq K] [LT K] [DecidableLT K]

theorem nothrow_bLoop (ndim : Nat) (xb : List Int) (a s : Nat → Int) (j : Nat) (fuel : Nat) :
    ∀ st ret, NoThrow (bLoop ndim xb a s j fuel st ret) := by
  induction fuel with
  | zero => intro st ret; exact nothrow_diverge
  | succ fuel ih =>
    intro st ret
    unfold bLoop
    dsimp only
    split
    · exact nothrow_ub
    · exact nothrow_ite (nothrow_ok _) (ih _ _)

theorem nothrow_lineLoop (rows : K → List (Axis K) → List (Axis K) × List (List Int)) (junk : K) (fuel : Nat) :
    ∀ axes ret, NoThrow (lineLoop rows junk fuel axes ret) := by
  induction fuel with
  | zero => intro st ret; exact nothrow_diverge
  | succ fuel ih =>
    intro axes ret
    unfold lineLoop
    exact nothrow_ite (nothrow_ok _) (ih _ _)

theorem nothrow_path (junk : K) (fuel : Nat) (x0 x1 : List Int) (mode : Mode) :
    NoThrow (path junk fuel x0 x1 mode) := by
  cases mode with
  | bresenham =>
    exact nothrow_ite nothrow_ub (nothrow_ite nothrow_ub (nothrow_bLoop _ _ _ _ _ _ _ _))
  | actual => exact nothrow_ite nothrow_ub (nothrow_lineLoop _ _ _ _ _)
  | full => exact nothrow_ite nothrow_ub (nothrow_lineLoop _ _ _ _ _)

end Path

/-! ### programs -/

namespace Exec

variable {S : Type}

/-- The program `p` ends as the function `f` says, and an exception leaves the object as it was. -/
structure Agree (p : Exec S) (f : S → Outcome S) : Prop where
  ends : ∀ s, (p s).2 = (f s).map fun _ => ()
  state : ∀ s s', f s = ok s' → (p s).1 = s'
  refused : ∀ s, f s = throws → (p s).1 = s

theorem Agree.congr {p : Exec S} {f g : S → Outcome S} (h : Agree p f) (hfg : ∀ s, f s = g s) : Agree p g := by
  have : f = g := funext hfg
  exact this ▸ h

theorem agree_check {ps : List (Exec S)} {f : S → Outcome S} (dbg : Bool) (c : S → Bool) (h : Agree (seq ps) f) :
    Agree (seq (check dbg c :: ps)) fun s => gassert dbg (c s) >>= fun _ => f s := by
  have key : ∀ s, (dbg && !c s) = true →
      seq (check dbg c :: ps) s = (s, throws) ∧ (gassert dbg (c s) >>= fun _ => f s) = throws := by
    intro s hs
    simp [seq, andThen, check, gassert, hs]
  have key' : ∀ s, (dbg && !c s) = false →
      seq (check dbg c :: ps) s = seq ps s ∧ (gassert dbg (c s) >>= fun _ => f s) = f s := by
    intro s hs
    simp [seq, andThen, check, gassert, hs]
  constructor
  · intro s
    cases hs : (dbg && !c s)
    · rw [(key' s hs).1, (key' s hs).2]; exact h.ends s
    · rw [(key s hs).1, (key s hs).2]; rfl
  · intro s s' hf
    cases hs : (dbg && !c s)
    · rw [(key' s hs).2] at hf; rw [(key' s hs).1]; exact h.state s s' hf
    · rw [(key s hs).2] at hf; cases hf
  · intro s hf
    cases hs : (dbg && !c s)
    · rw [(key' s hs).2] at hf; rw [(key' s hs).1]; exact h.refused s hf
    · rw [(key s hs).1]

/-- Statements that do not throw. -/
theorem agree_run (any : S) {f : S → Outcome S} (hf : ∀ s, NoThrow (f s)) : Agree (seq [run any f]) f := by
  constructor
  · intro s
    cases h : f s <;> simp [seq, andThen, run, h, Outcome.map]
  · intro s s' h
    simp [seq, andThen, run, h]
  · intro s h
    exact absurd h (hf s)

/-- Statements that do not throw, one after the other. -/
theorem agree_more (any : S) {f g : S → Outcome S} {ps : List (Exec S)} (hf : ∀ s, NoThrow (f s))
    (hg : ∀ s, NoThrow (g s)) (h : Agree (seq ps) g) : Agree (seq (run any f :: ps)) fun s => (f s).bind g := by
  constructor
  · intro s
    cases e : f s with
    | ok s1 => simpa [seq, andThen, run, e, Outcome.bind] using h.ends s1
    | throws => simp [seq, andThen, run, e, Outcome.bind, Outcome.map]
    | ub => simp [seq, andThen, run, e, Outcome.bind, Outcome.map]
    | diverge => simp [seq, andThen, run, e, Outcome.bind, Outcome.map]
  · intro s s' e'
    cases e : f s with
    | ok s1 =>
      rw [e] at e'
      simpa [seq, andThen, run, e] using h.state s1 s' e'
    | throws => rw [e] at e'; cases e'
    | ub => rw [e] at e'; cases e'
    | diverge => rw [e] at e'; cases e'
  · intro s e'
    exact absurd e' (nothrow_bind (hf s) hg)

/-- An assignment before statements that do not throw. -/
theorem agree_assign (u : S → S) {g : S → Outcome S} {ps : List (Exec S)} (hg : ∀ s, NoThrow (g s))
    (h : Agree (seq ps) g) : Agree (seq (assign u :: ps)) fun s => g (u s) := by
  constructor
  · intro s; simpa [seq, andThen, assign] using h.ends (u s)
  · intro s s' e; simpa [seq, andThen, assign] using h.state (u s) s' e
  · intro s e; exact absurd e (hg (u s))

end Exec

/-! ### measures -/

namespace Ens

open Exec Nd

variable {K : Type} [Zero K] [One K] [Add K] [Sub K] [Mul K] [Div K] [Pow K Nat] [NatCast K] [IntCast K] [LE K]
  [DecidableLE K] [Neg K] [Max K] [DecidableEq K]
variable {P : Type} [Zero P] [One P] [Add P] [Sub P] [Neg P] [Mul P] [Div P] [NatCast P] [IntCast P] [DecidableEq P]
  [LT P] [DecidableLT P]

theorem nothrow_addFirst (E : Ensemble K) (a : Nd K) : NoThrow (addFirst E a) :=
  nothrow_do (nothrow_map₂ _ _ _) fun _ => nothrow_ok _
theorem nothrow_addSecond (E : Ensemble K) (a : Nd K) : NoThrow (addSecond E a) :=
  nothrow_do (nothrow_map₂ _ _ _) fun _ => nothrow_ok _
theorem nothrow_addNorm (E : Ensemble K) (a : Nd K) : NoThrow (addNorm E a) :=
  nothrow_do (nothrow_map₂ _ _ _) fun _ => nothrow_ok _
theorem nothrow_unmasked (m : Nd Int) (pad : List (Nat × Nat)) (x : List Int) :
    NoThrow (unmasked (K := K) m pad x) := nothrow_do (nothrow_view _ _) fun _ => nothrow_ok _

theorem nothrow_bodyS2 (pad : List (Nat × Nat)) (F G : Nd K) (Fm Gm : Nd Int) (E : Ensemble K) (x : List Int) :
    NoThrow (bodyS2 pad F G Fm Gm E x) :=
  nothrow_do (nothrow_read _ _) fun _ => nothrow_ite (nothrow_ok _) <|
    nothrow_do (nothrow_view _ _) fun _ => nothrow_do (nothrow_unmasked _ _ _) fun _ =>
      nothrow_do (nothrow_read _ _) fun _ => nothrow_ite
        (nothrow_do (nothrow_do (nothrow_map₂ _ _ _) fun _ => nothrow_addFirst _ _) fun _ => nothrow_addNorm _ _)
        (nothrow_do (nothrow_ok _) fun _ => nothrow_addNorm _ _)

theorem nothrow_bodyC2 (pad : List (Nat × Nat)) (F G : Nd K) (Fm Gm : Nd Int) (E : Ensemble K) (x : List Int) :
    NoThrow (bodyC2 pad F G Fm Gm E x) :=
  nothrow_do (nothrow_read _ _) fun _ => nothrow_ite (nothrow_ok _) <|
    nothrow_do (nothrow_view _ _) fun _ => nothrow_do (nothrow_unmasked _ _ _) fun _ =>
      nothrow_do (nothrow_read _ _) fun _ => nothrow_ite
        (nothrow_do (nothrow_do (nothrow_map₂ _ _ _) fun _ => nothrow_addFirst _ _) fun _ => nothrow_addNorm _ _)
        (nothrow_do (nothrow_ok _) fun _ => nothrow_addNorm _ _)

theorem nothrow_bodyW2 (pad : List (Nat × Nat)) (F G : Nd K) (Gm : Nd Int) (E : Ensemble K) (x : List Int) :
    NoThrow (bodyW2 pad F G Gm E x) :=
  nothrow_do (nothrow_view _ _) fun _ => nothrow_do (nothrow_unmasked _ _ _) fun _ =>
    nothrow_do (nothrow_read _ _) fun _ => nothrow_ite
        (nothrow_do (nothrow_do (nothrow_map₂ _ _ _) fun _ => nothrow_addFirst _ _) fun _ => nothrow_addNorm _ _)
        (nothrow_do (nothrow_ok _) fun _ => nothrow_addNorm _ _)

theorem nothrow_bodyHH (pad : List (Nat × Nat)) (F : Nd K) (Fm : Nd Int) (E : Ensemble K) (x : List Int) :
    NoThrow (bodyHH pad F Fm E x) :=
  nothrow_do (nothrow_read _ _) fun _ => nothrow_ite (nothrow_ok _) <|
    nothrow_do (nothrow_view _ _) fun _ => nothrow_do (nothrow_unmasked _ _ _) fun _ =>
      nothrow_do (nothrow_read _ _) fun _ => nothrow_do (nothrow_map₂ _ _ _) fun _ =>
        nothrow_do (nothrow_addFirst _ _) fun _ => nothrow_ite
        (nothrow_do (nothrow_do (nothrow_map₂ _ _ _) fun _ => nothrow_addSecond _ _) fun _ => nothrow_addNorm _ _)
        (nothrow_do (nothrow_ok _) fun _ => nothrow_addNorm _ _)

theorem nothrow_walkL (pad : List (Nat × Nat)) (F : Nd K) (x : List Int) (path : List (List Int)) :
    ∀ E, NoThrow (walkL pad F x path E) := by
  induction path with
  | nil => intro E; exact nothrow_ok _
  | cons d path ih =>
    intro E
    exact nothrow_do (nothrow_read _ _) fun _ => nothrow_ite (nothrow_ok _) <|
      nothrow_do (nothrow_addAt _ _ _) fun _ => ih _

theorem nothrow_stampL {pathTo : List Int → Outcome (List (List Int))} (hp : ∀ s, NoThrow (pathTo s))
    (pad : List (Nat × Nat)) (F : Nd K) (size : Nat) (E : Ensemble K) (stamp : List Int) :
    NoThrow (stampL pathTo pad F size E stamp) :=
  nothrow_do (hp _) fun _ => nothrow_do (nothrow_forM (fun _ _ => nothrow_walkL _ _ _ _ _) _ _) fun _ =>
    nothrow_forM (fun _ _ => nothrow_do (nothrow_addAt _ _ _) fun _ => nothrow_ok _) _ _

theorem nothrow_walkW2c (pad : List (Nat × Nat)) (F : Nd K) (Fm C : Nd Int) (label : Int) (x : List Int)
    (path todo : List (List Int)) : ∀ q E, NoThrow (walkW2c pad F Fm C label x path todo q E) := by
  induction todo with
  | nil => intro q E; exact nothrow_ok _
  | cons d todo ih =>
    intro q E
    refine nothrow_do (nothrow_read _ _) fun _ => nothrow_ite (nothrow_do (nothrow_do (nothrow_read _ _) fun _ =>
      nothrow_ite ?_ (nothrow_ok _)) fun _ => ih _ _) (nothrow_do (nothrow_ok _) fun _ => ih _ _)
    split
    · exact nothrow_ub
    · exact nothrow_do (nothrow_addAt _ _ _) fun _ => nothrow_do (nothrow_read _ _) fun _ =>
        nothrow_do (nothrow_addAt _ _ _) fun _ => nothrow_ok _

theorem nothrow_stampW2c {pathTo : List Int → Outcome (List (List Int))} (hp : ∀ s, NoThrow (pathTo s))
    (pad : List (Nat × Nat)) (F : Nd K) (Fm C D : Nd Int) (E : Ensemble K) (stamp : List Int) :
    NoThrow (stampW2c pathTo pad F Fm C D E stamp) :=
  nothrow_do (hp _) fun _ => nothrow_forM (fun _ _ => nothrow_do (nothrow_read _ _) fun _ =>
    nothrow_ite (nothrow_ok _) <| nothrow_do (nothrow_read _ _) fun _ => nothrow_ite (nothrow_ok _)
      (nothrow_walkW2c _ _ _ _ _ _ _ _ _ _)) _ _

theorem nothrow_add0 (a : Nd K) (v : K) : NoThrow (addTo0 a v) := nothrow_addAt _ _ _

theorem agree_mean (any : Ensemble K) (dbg : Bool) (f : Nd K) :
    Agree (meanX any dbg f) fun E => Ens.mean dbg E f := by
  have n1 : ∀ E : Ensemble K, NoThrow (do
      let v ← ok f.sum
      let first ← addTo0 E.first v
      pure { E with first := first } : Outcome (Ensemble K)) :=
    fun E => nothrow_do (nothrow_ok _) fun _ => nothrow_do (nothrow_add0 _ _) fun _ => nothrow_ok _
  have n2 : ∀ E : Ensemble K, NoThrow (do
      let v ← ok (f.map fun x => x ^ 2).sum
      let second ← addTo0 E.second v
      pure { E with second := second } : Outcome (Ensemble K)) :=
    fun E => nothrow_do (nothrow_ok _) fun _ => nothrow_do (nothrow_add0 _ _) fun _ => nothrow_ok _
  have n3 : ∀ E : Ensemble K, NoThrow (do
      let v ← ok (f.size : K)
      let norm ← addTo0 E.norm v
      pure { E with norm := norm } : Outcome (Ensemble K)) :=
    fun E => nothrow_do (nothrow_ok _) fun _ => nothrow_do (nothrow_add0 _ _) fun _ => nothrow_ok _
  have h3 := agree_run any n3
  have h2 := agree_more any n2 n3 h3
  have h1 := agree_more any n1 (fun E => nothrow_bind (n2 E) n3) h2
  have h0 := agree_assign (fun E : Ensemble K => { E with stat := .mean })
    (fun E => nothrow_bind (n1 E) fun E => nothrow_bind (n2 E) n3) h1
  refine (agree_check dbg _ (agree_check dbg _ h0)).congr fun E => ?_
  unfold Ens.mean
  congr 1; funext _; congr 1; funext _
  simp only [ok_bind]
  cases addTo0 E.first f.sum <;> try rfl
  simp only [ok_bind, pure_eq, Outcome.bind]
  cases addTo0 E.second (f.map fun x => x ^ 2).sum <;> rfl

theorem agree_meanMask (any : Ensemble K) (dbg : Bool) (f : Nd K) (m : Nd Int) :
    Agree (meanMaskX any dbg f m) fun E => Ens.meanMask dbg E f m := by
  have n1 : ∀ E : Ensemble K, NoThrow (do
      let v ← (map₂ (fun (m : Int) x => if m = 0 then x else 0) m f).map Nd.sum
      let first ← addTo0 E.first v
      pure { E with first := first } : Outcome (Ensemble K)) :=
    fun E => nothrow_do (nothrow_map _ (nothrow_map₂ _ _ _)) fun _ =>
      nothrow_do (nothrow_add0 _ _) fun _ => nothrow_ok _
  have n2 : ∀ E : Ensemble K, NoThrow (do
      let v ← (map₂ (fun (m : Int) x => if m = 0 then x ^ 2 else 0) m f).map Nd.sum
      let second ← addTo0 E.second v
      pure { E with second := second } : Outcome (Ensemble K)) :=
    fun E => nothrow_do (nothrow_map _ (nothrow_map₂ _ _ _)) fun _ =>
      nothrow_do (nothrow_add0 _ _) fun _ => nothrow_ok _
  have n3 : ∀ E : Ensemble K, NoThrow (do
      let v ← ok (m.map fun m => ((1 - m : Int) : K)).sum
      let norm ← addTo0 E.norm v
      pure { E with norm := norm } : Outcome (Ensemble K)) :=
    fun E => nothrow_do (nothrow_ok _) fun _ => nothrow_do (nothrow_add0 _ _) fun _ => nothrow_ok _
  have h3 := agree_run any n3
  have h2 := agree_more any n2 n3 h3
  have h1 := agree_more any n1 (fun E => nothrow_bind (n2 E) n3) h2
  have h0 := agree_assign (fun E : Ensemble K => { E with stat := .mean })
    (fun E => nothrow_bind (n1 E) fun E => nothrow_bind (n2 E) n3) h1
  refine (agree_check dbg _ (agree_check dbg _ (agree_check dbg _ (agree_check dbg _ h0)))).congr fun E => ?_
  unfold Ens.meanMask
  congr 1; funext _; congr 1; funext _; congr 1; funext _; congr 1; funext _
  dsimp only
  cases map₂ (fun (m : Int) x => if m = 0 then x else 0) m f <;> try rfl
  rename_i v1
  simp only [Outcome.map, ok_bind]
  cases addTo0 E.first v1.sum <;> try rfl
  cases map₂ (fun (m : Int) x => if m = 0 then x ^ 2 else 0) m f <;> try rfl
  rename_i v2
  simp only [ok_bind, pure_eq, Outcome.bind]
  cases addTo0 E.second v2.sum <;> rfl

/-- `m_stat = ...; body` with a body that does not throw. -/
theorem agree_lock (any : Ensemble K) (st : Stat) {f : Ensemble K → Outcome (Ensemble K)}
    (hf : ∀ E, NoThrow (f E)) : Agree (seq [lock st, run any f]) fun E => f { E with stat := st } :=
  agree_assign _ hf (agree_run any hf)

theorem agree_S2 (any : Ensemble K) (dbg : Bool) (f g : Nd K) (fm gm : Nd Int) :
    Agree (S2X any dbg f g fm gm) fun E => Ens.S2 dbg E f g fm gm :=
  agree_check _ _ <| agree_check _ _ <| agree_check _ _ <| agree_check _ _ <| agree_check _ _ <|
    agree_check _ _ <| agree_check _ _ <| agree_lock any _ fun _ =>
      nothrow_do (nothrow_pad _ _ _ _) fun _ => nothrow_do (nothrow_pad _ _ _ _) fun _ =>
      nothrow_do (nothrow_pad _ _ _ _) fun _ => nothrow_do (nothrow_pad _ _ _ _) fun _ =>
        nothrow_forM (fun _ _ => nothrow_bodyS2 _ _ _ _ _ _ _) _ _

theorem agree_C2 (any : Ensemble K) (dbg : Bool) (f g : Nd K) (fm gm : Nd Int) :
    Agree (C2X any dbg f g fm gm) fun E => Ens.C2 dbg E f g fm gm :=
  agree_check _ _ <| agree_check _ _ <| agree_check _ _ <| agree_check _ _ <| agree_check _ _ <|
    agree_check _ _ <| agree_check _ _ <| agree_lock any _ fun _ =>
      nothrow_do (nothrow_pad _ _ _ _) fun _ => nothrow_do (nothrow_pad _ _ _ _) fun _ =>
      nothrow_do (nothrow_pad _ _ _ _) fun _ => nothrow_do (nothrow_pad _ _ _ _) fun _ =>
        nothrow_forM (fun _ _ => nothrow_bodyC2 _ _ _ _ _ _ _) _ _

theorem agree_W2 (any : Ensemble K) (dbg : Bool) (f g : Nd K) (gm : Nd Int) :
    Agree (W2X any dbg f g gm) fun E => Ens.W2 dbg E f g gm :=
  agree_check _ _ <| agree_check _ _ <| agree_check _ _ <| agree_check _ _ <| agree_check _ _ <|
    agree_lock any _ fun _ =>
      nothrow_do (nothrow_pad _ _ _ _) fun _ => nothrow_do (nothrow_pad _ _ _ _) fun _ =>
      nothrow_do (nothrow_pad _ _ _ _) fun _ => nothrow_forM (fun _ _ => nothrow_bodyW2 _ _ _ _ _ _) _ _

theorem agree_heightheight (any : Ensemble K) (dbg : Bool) (f : Nd K) (fm : Nd Int) :
    Agree (heightheightX any dbg f fm) fun E => Ens.heightheight dbg E f fm :=
  agree_check _ _ <| agree_check _ _ <| agree_check _ _ <| agree_check _ _ <|
    agree_lock any _ fun _ =>
      nothrow_do (nothrow_pad _ _ _ _) fun _ => nothrow_do (nothrow_pad _ _ _ _) fun _ =>
        nothrow_forM (fun _ _ => nothrow_bodyHH _ _ _ _ _) _ _

theorem agree_L (any : Ensemble K) (dbg : Bool) (junk : P) (fuel : Nat) (f : Nd K) (mode : Path.Mode) :
    Agree (LX any dbg junk fuel f mode) fun E => Ens.L dbg junk fuel E f mode :=
  agree_check _ _ <| agree_check _ _ <| agree_lock any _ fun _ =>
    nothrow_do (nothrow_pad _ _ _ _) fun _ =>
      nothrow_forM (fun _ _ => nothrow_stampL (fun _ => Path.nothrow_path _ _ _ _ _) _ _ _ _ _) _ _

theorem agree_W2c (any : Ensemble K) (dbg : Bool) (junk : P) (fuel : Nat) (cl ce : Nd Int) (f : Nd K) (fm : Nd Int)
    (mode : Path.Mode) :
    Agree (W2cX any dbg junk fuel cl ce f fm mode) fun E => Ens.W2c dbg junk fuel E cl ce f fm mode :=
  agree_check _ _ <| agree_check _ _ <| agree_check _ _ <| agree_check _ _ <| agree_check _ _ <|
    agree_check _ _ <| agree_lock any _ fun _ =>
      nothrow_do (nothrow_pad _ _ _ _) fun _ => nothrow_do (nothrow_pad _ _ _ _) fun _ =>
      nothrow_do (nothrow_pad _ _ _ _) fun _ => nothrow_do (nothrow_pad _ _ _ _) fun _ =>
        nothrow_forM (fun _ _ => nothrow_stampW2c (fun _ => Path.nothrow_path _ _ _ _ _) _ _ _ _ _ _ _) _ _

end Ens

/-! ### the labeller -/

namespace Cluster

open Exec

theorem nothrow_usizeMod (a b : Int) : NoThrow (usizeMod a b) := nothrow_ite nothrow_ub (nothrow_ok _)
theorem nothrow_usizeDiv (a b : Int) : NoThrow (usizeDiv a b) := nothrow_ite nothrow_ub (nothrow_ok _)

theorem nothrow_shiftLoop (periodic : Bool) (shape : List Nat) :
    ∀ index dx, NoThrow (shiftLoop periodic shape index dx) := by
  induction shape with
  | nil =>
    intro index dx
    cases index <;> cases dx <;> simp [shiftLoop, NoThrow]
  | cons n shape ih =>
    intro index dx
    cases index with
    | nil => exact nothrow_ub
    | cons i index =>
      cases dx with
      | nil => exact nothrow_ub
      | cons d dx =>
        exact nothrow_ite (nothrow_ite nothrow_ub (nothrow_bind (ih _ _) fun _ => nothrow_ok _))
          (nothrow_ite (nothrow_ok _) (nothrow_bind (ih _ _) fun _ => nothrow_ok _))

theorem nothrow_getCompare (periodic : Bool) (shape : List Nat) (idx : Int) (d : List Int) :
    NoThrow (getCompare periodic shape idx d) := by
  unfold getCompare
  split
  · exact nothrow_ite (nothrow_usizeMod _ _) (nothrow_ite (nothrow_ok _) (nothrow_ok _))
  · exact nothrow_ite (nothrow_ite (nothrow_usizeMod _ _) (nothrow_ite (nothrow_ok _) (nothrow_ok _)))
      (nothrow_ite (nothrow_ite (nothrow_usizeMod _ _) (nothrow_ite (nothrow_ok _) (nothrow_ok _)))
        (nothrow_bind (nothrow_usizeDiv _ _) fun _ => nothrow_bind (nothrow_usizeMod _ _) fun _ =>
          nothrow_ite (nothrow_bind (nothrow_usizeMod _ _) fun _ => nothrow_bind (nothrow_usizeMod _ _) fun _ =>
            nothrow_ok _) (nothrow_ite (nothrow_ok _) (nothrow_ok _))))
  · refine nothrow_bind (nothrow_shiftLoop _ _ _ _) fun r => ?_
    cases r <;> exact nothrow_ok _

theorem nothrow_connectedLoop (s : State) (idx : Int) (dx : List (List Int)) :
    NoThrow (connectedLoop s idx dx) := by
  induction dx with
  | nil => exact nothrow_ok _
  | cons d dx ih =>
    exact nothrow_bind (nothrow_getCompare _ _ _ _) fun _ => nothrow_ite ih <|
      nothrow_bind (nothrow_vread _ _) fun _ => nothrow_ite
        (nothrow_bind (nothrow_vread _ _) fun _ => nothrow_bind ih fun _ => nothrow_ok _) ih

theorem nothrow_setLoop (next : Vec Int) (target : Int) (fuel : Nat) :
    ∀ i renum, NoThrow (setLoop next target fuel i renum) := by
  induction fuel with
  | zero => intro i renum; exact nothrow_diverge
  | succ fuel ih =>
    intro i renum
    exact nothrow_bind (nothrow_vread _ _) fun _ => nothrow_ite (nothrow_ok _)
      (nothrow_bind (nothrow_vwrite _ _ _) fun _ => ih _ _)

theorem nothrow_lastLoop (next : Vec Int) (fuel : Nat) : ∀ a, NoThrow (lastLoop next fuel a) := by
  induction fuel with
  | zero => intro a; exact nothrow_diverge
  | succ fuel ih =>
    intro a
    exact nothrow_bind (nothrow_vread _ _) fun _ => nothrow_ite (ih _) (nothrow_ok _)

theorem nothrow_mergeLoop (target : Int) (l : List Int) : ∀ s, NoThrow (mergeLoop target l s) := by
  induction l with
  | nil => intro s; exact nothrow_ok _
  | cons b l ih =>
    intro s
    exact nothrow_bind (nothrow_bind (nothrow_vread _ _) fun _ => nothrow_bind (nothrow_vread _ _) fun _ =>
      nothrow_bind (nothrow_vwrite _ _ _) fun _ => nothrow_bind (nothrow_setLoop _ _ _ _ _) fun _ =>
      nothrow_bind (nothrow_lastLoop _ _ _) fun _ => nothrow_bind (nothrow_vwrite _ _ _) fun _ => nothrow_ok _) ih

theorem nothrow_labelImpl (s : State) (idx : Int) : NoThrow (labelImpl s idx) := by
  refine nothrow_bind (nothrow_connectedLoop _ _ _) fun c => ?_
  split
  · exact nothrow_bind (nothrow_vwrite _ _ _) fun _ => nothrow_ok _
  · exact nothrow_bind (nothrow_vwrite _ _ _) fun _ => nothrow_ok _
  · split
    · exact nothrow_ub
    · exact nothrow_bind (nothrow_vwrite _ _ _) fun _ => nothrow_ok _
    · exact nothrow_bind (nothrow_mergeLoop _ _ _) fun _ => nothrow_bind (nothrow_vwrite _ _ _) fun _ => nothrow_ok _

theorem nothrow_addPoint (s : State) (idx : Int) : NoThrow (addPoint s idx) :=
  nothrow_bind (nothrow_vread _ _) fun _ => nothrow_ite (nothrow_ok _) (nothrow_labelImpl _ _)

theorem nothrow_addPixel (s : State) (p : Nat × Int) : NoThrow (addPixel s p) :=
  nothrow_ite (nothrow_ok _) (nothrow_addPoint _ _)

theorem nothrow_renumberLoop (renum : Vec Int) (l : List Nat) : ∀ label, NoThrow (renumberLoop renum l label) := by
  induction l with
  | nil => intro label; exact nothrow_ok _
  | cons i l ih =>
    intro label
    exact nothrow_bind (nothrow_vread _ _) fun _ => nothrow_bind (nothrow_vread _ _) fun _ =>
      nothrow_bind (nothrow_vwrite _ _ _) fun _ => ih _

theorem nothrow_privateRenumber (s : State) : NoThrow (privateRenumber s) :=
  nothrow_bind (nothrow_renumberLoop _ _ _) fun _ => nothrow_ok _

theorem nothrow_applyMerge (s : State) : NoThrow (applyMerge s) :=
  nothrow_ite (nothrow_ok _) (nothrow_bind (nothrow_privateRenumber _) fun _ => nothrow_ok _)

theorem nothrow_pruneLoop (l : List Nat) : ∀ n renum, NoThrow (pruneLoop l n renum) := by
  induction l with
  | nil => intro n renum; exact nothrow_ok _
  | cons i l ih =>
    intro n renum
    exact nothrow_bind (nothrow_vread _ _) fun _ => nothrow_ite
      (nothrow_bind (nothrow_vwrite _ _ _) fun _ => ih _ _) (ih _ _)

theorem nothrow_prune (s : State) : NoThrow (prune s) :=
  nothrow_bind (nothrow_vwrite _ _ _) fun _ => nothrow_bind (nothrow_pruneLoop _ _ _) fun _ =>
    nothrow_bind (nothrow_privateRenumber _) fun _ =>
      nothrow_bind (nothrow_ite (nothrow_ok _) nothrow_ub) fun _ => nothrow_ok _

theorem nothrow_seqInner (nl : Int) (nm : Nat) (lab : Int) (l : List Int) :
    ∀ i s, NoThrow (seqInner nl nm lab l i s) := by
  induction l with
  | nil => intro i s; exact nothrow_ok _
  | cons p l ih =>
    intro i s
    exact nothrow_bind (nothrow_vread _ _) fun _ => nothrow_ite (nothrow_ok _) (nothrow_ite (ih _ _)
      (nothrow_bind (nothrow_labelImpl _ _) fun _ => nothrow_ite (nothrow_ok _) (ih _ _)))

theorem nothrow_seqOuter (points : List Int) (fuel : Nat) :
    ∀ i s ret, NoThrow (seqOuter points fuel i s ret) := by
  induction fuel with
  | zero => intro i s ret; exact nothrow_diverge
  | succ fuel ih =>
    intro i s ret
    unfold seqOuter
    split
    · exact nothrow_ub
    · refine nothrow_bind (nothrow_vread _ _) fun _ => nothrow_bind (nothrow_seqInner _ _ _ _ _ _) fun r => ?_
      split
      · exact nothrow_ok _
      · exact ih _ _ _

theorem gassert_bind {α : Type} (dbg c : Bool) (x : Outcome α) :
    (gassert dbg c >>= fun _ => x) = if dbg && !c then throws else x := by
  unfold gassert; split <;> rfl

theorem agree_addImage (any : State) (dbg : Bool) (shape : List Nat) (img : List Int) :
    Agree (addImageX any dbg shape img) fun s => addImage dbg s shape img := by
  refine (agree_check dbg _ (agree_more any (fun s => nothrow_forM nothrow_addPixel _ _) nothrow_applyMerge
    (agree_run any nothrow_applyMerge))).congr fun s => ?_
  rw [gassert_bind]; rfl

theorem agree_addPoints (any : State) (dbg : Bool) (points : List Int) :
    Agree (addPointsX any dbg points) fun s => addPoints dbg s points := by
  refine (agree_check dbg _ (agree_more any (fun s => nothrow_forM nothrow_addPoint _ _) nothrow_applyMerge
    (agree_run any nothrow_applyMerge))).congr fun s => ?_
  rw [gassert_bind]; rfl

theorem agree_addSequence (any : State) (dbg : Bool) (points : List Int) :
    Agree (addSequenceX any dbg points) fun s => (addSequence dbg s points).map Prod.fst := by
  refine (agree_check dbg _ (agree_check dbg _ (agree_more any
    (fun s => nothrow_map _ (nothrow_seqOuter _ _ _ _ _)) nothrow_applyMerge
    (agree_run any nothrow_applyMerge)))).congr fun s => ?_
  rw [gassert_bind, gassert_bind]
  unfold addSequence
  simp only [Bool.not_not]
  split
  · rfl
  · split
    · rfl
    · cases seqOuter points (2 * points.length + 2) 0 s [] with
      | ok r =>
        simp only [Outcome.map, Outcome.bind]
        cases applyMerge r.1 <;> rfl
      | throws => rfl
      | ub => rfl
      | diverge => rfl

theorem agree_prune (any : State) : Agree (pruneX any) prune := by
  refine ⟨fun s => ?_, fun s s' h => ?_, fun s h => absurd h (nothrow_prune s)⟩
  · unfold pruneX run; cases prune s <;> rfl
  · simp [pruneX, run, h]

theorem agree_reset : Agree resetX fun s => ok (reset s) :=
  ⟨fun _ => rfl, fun _ _ h => Outcome.ok.inj h, fun _ h => nomatch h⟩

end Cluster

end Verif
