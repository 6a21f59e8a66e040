import Verif.Props.Hierarchy
import Verif.Spec.Runs

/-! # The lineal-path function along the axes (C93, C94) -/

set_option linter.unusedSectionVars false

namespace Verif.Props

open Verif Outcome Spec Ens

variable {K : Type} [Field K] [LinearOrder K] [IsStrictOrderedRing K]
variable {roi : List Nat} {periodic : Bool} {f : Nd K}

/-! ### Displacements along an axis -/

theorem axial_length (n a : Nat) (k : Int) : (axial n a k).length = n := by simp [axial]

theorem axial_getD {n a : Nat} (ha : a < n) (k : Int) (i : Nat) :
    (axial n a k).getD i 0 = if i = a then k else 0 := by
  unfold axial
  rw [List.getD_eq_getElem?_getD, List.getElem?_set]
  by_cases h : a = i
  · subst h
    simp [ha]
  · rw [if_neg h, if_neg (fun e => h e.symm), List.getElem?_replicate]
    split <;> rfl

theorem ext_getD {x y : List Int} (hl : x.length = y.length) (h : ∀ i < x.length, x.getD i 0 = y.getD i 0) :
    x = y := by
  refine List.ext_getElem hl fun i h1 h2 => ?_
  have := h i h1
  simpa [List.getD_eq_getElem?_getD, h1, h2] using this

theorem axial_zero (n a : Nat) : axial n a 0 = List.replicate n 0 := by
  unfold axial
  refine List.ext_getElem (by simp) fun i h1 h2 => ?_
  rw [List.getElem_set]
  split <;> simp

/-! ### Paths that never move away from their end -/

/-- No coordinate moves away from that of `s`, and each moves by at most one. -/
def Toward (s a b : List Int) : Prop := ∀ i < s.length, TowardsOrStay (s.getD i 0) (a.getD i 0) (b.getD i 0)

theorem toward_of_raise {s a b : List Int} (hs : s.length ≤ 3) (ha : a.length = s.length)
    (hb : b.length = s.length) (h : StepTowards (raise s) (raise a) (raise b)) : Toward s a b := by
  obtain ⟨-, -, h⟩ := h
  have h3 : (raise s).length = 3 := by
    rcases length_cases hs with rfl | ⟨a, rfl⟩ | ⟨a, b, rfl⟩ | ⟨a, b, c, rfl⟩ <;> rfl
  rw [h3] at h
  have a0 := h 0 (by omega)
  have a1 := h 1 (by omega)
  have a2 := h 2 (by omega)
  clear h h3
  intro i hi
  cases same3 hs ha <;> cases same3 hs hb <;> simp only [raise, List.length_cons, List.length_nil] at a0 a1 a2 hi
  · omega
  · obtain rfl : i = 0 := by omega
    exact a1
  · have : i = 0 ∨ i = 1 := by omega
    rcases this with rfl | rfl
    · exact a0
    · exact a1
  · have : i = 0 ∨ i = 1 ∨ i = 2 := by omega
    rcases this with rfl | rfl | rfl
    · exact a0
    · exact a1
    · exact a2

theorem unit_towards {b x y : List Int} (h : UnitStep b x y) (hx : x.length = b.length) : StepTowards b x y := by
  obtain ⟨i, hi, h⟩ := h
  have key : ∀ v, v ≠ x.getD i 0 → TowardsOrStay (b.getD i 0) (x.getD i 0) v → StepTowards b x (x.set i v) := by
    intro v hv hT
    refine ⟨fun e => hv ?_, by simp, fun j hj => ?_⟩
    · have := congrArg (fun l => l.getD i 0) e
      simpa [List.getD_eq_getElem?_getD, hx, hi] using this
    · by_cases hji : i = j
      · subst hji
        rw [show (x.set i v).getD i 0 = v by simp [List.getD_eq_getElem?_getD, hx, hi]]
        exact hT
      · left
        simp [List.getD_eq_getElem?_getD, hji]
  rcases h with ⟨h1, rfl⟩ | ⟨h1, rfl⟩
  · exact key _ (by omega) (Or.inr (Or.inl ⟨h1, rfl⟩))
  · exact key _ (by omega) (Or.inr (Or.inr ⟨h1, rfl⟩))

/-- All modes: a path from the origin goes towards its end, and gets there. -/
theorem isPath_towards {junk : ℚ} {fuel : Nat} {mode : Path.Mode} (hr : roi.length ≤ 3) (hm : Enough fuel roi mode)
    {s : List Int} (hs : s ∈ edge roi) (h0 : s ≠ List.replicate roi.length 0) {p : List (List Int)}
    (hp : IsPath junk fuel mode roi s p) : p.IsChain (Toward s) ∧ p.getLast? = some s := by
  obtain ⟨i, hi, rfl⟩ := mem_edge hs
  have hl := displacement_length (inbox_length hi)
  have h3 : (raise (displacement roi i)).length = 3 := by
    rcases length_cases (show (displacement roi i).length ≤ 3 by omega) with e | ⟨a, e⟩ | ⟨a, b, e⟩ | ⟨a, b, c, e⟩ <;>
      rw [e] <;> rfl
  have hz := raise_zero hr
  have hne0 : ([0, 0, 0] : List Int) ≠ raise (displacement roi i) := by
    intro h
    apply h0
    rw [← raise_inj (by omega) (by simp [hl]), hz, h]
  have hne : manhattan (origin (raise (displacement roi i)).length) (raise (displacement roi i)) ≠ 0 := by
    rw [h3]
    intro h
    apply hne0
    obtain ⟨a, b, c, e⟩ := List.length_eq_three.1 h3
    rw [e] at h ⊢
    have h' : a.natAbs + (b.natAbs + c.natAbs) = 0 := by simpa [manhattan, origin, List.replicate_succ] using h
    have : a = 0 ∧ b = 0 ∧ c = 0 := by omega
    simp [this]
  have e' : Path.path junk fuel (origin 3) (raise (displacement roi i)) mode = ok (p.map raise) := hp.path
  have key : (p.map raise).IsChain (StepTowards (raise (displacement roi i))) ∧
      (p.map raise).getLast? = some (raise (displacement roi i)) := by
    cases mode with
    | bresenham =>
      obtain ⟨ret, e, -, -, hlast, -, hc⟩ := C26_bresenham junk fuel (x0 := [0, 0, 0])
        (x1 := raise (displacement roi i)) (by simp) (by rw [h3]; rfl) hne0
      have e'' : Path.path junk fuel [0, 0, 0] (raise (displacement roi i)) .bresenham = ok (p.map raise) := e'
      rw [e''] at e
      cases e
      exact ⟨hc.imp fun a b h => h.1, hlast⟩
    | actual =>
      obtain ⟨b1, b2⟩ := enough_bounds hr hm (by decide) hi
      obtain ⟨ret, e, -, hc, -⟩ := C31_actual_partial junk (fuel := fuel) (x1 := raise (displacement roi i)) (by omega) b1 hne
        (by rw [h3]; exact b2.le)
      obtain ⟨ret', q, -, hlast⟩ := C30_origin_partial junk (fuel := fuel) (x1 := raise (displacement roi i)) (by omega) b1
        hne (by rw [h3]; exact b2.le) (Or.inl rfl)
      rw [h3, e'] at e q
      cases e
      cases q
      exact ⟨hc, hlast⟩
    | full =>
      obtain ⟨b1, b2⟩ := enough_bounds hr hm (by decide) hi
      obtain ⟨ret, e, -, hc, hin⟩ := C31_full_partial junk (fuel := fuel) (x1 := raise (displacement roi i)) (by omega) b1 hne
        (by rw [h3]; exact b2.le)
      obtain ⟨ret', q, -, hlast⟩ := C30_origin_partial junk (fuel := fuel) (x1 := raise (displacement roi i)) (by omega) b1
        hne (by rw [h3]; exact b2.le) (Or.inr rfl)
      rw [h3, e'] at e q
      cases e
      cases q
      refine ⟨?_, hlast⟩
      have hlen : ∀ x ∈ p.map raise, x.length = (raise (displacement roi i)).length := fun x hx => by
        rw [(hin x hx).1]; simp [origin]
      exact chain_of_map (g := id) (P := fun x => x.length = (raise (displacement roi i)).length) hlen
        (fun a b ha _ h => unit_towards h ha) (by rwa [List.map_id])
  constructor
  · refine chain_of_map (P := fun e => e.length = roi.length) (fun a ha => (hp.mem a ha).1) ?_ key.1
    intro a b ha hb hu
    exact toward_of_raise (by omega) (by omega) (by omega) hu
  · have := key.2
    rw [List.getLast?_map] at this
    cases hlast : p.getLast? with
    | none => rw [hlast] at this; simp at this
    | some e =>
      rw [hlast] at this
      have he := (hp.mem e (List.mem_of_getLast? hlast)).1
      have e1 : raise e = raise (displacement roi i) := by simpa using this
      rw [(raise_inj (by omega) (by omega)).1 e1]

/-- Along such a path the coordinates do not turn back. -/
theorem chain_between {s : List Int} : ∀ {p : List (List Int)} {e : List Int}, (e :: p).IsChain (Toward s) →
    (∀ i < s.length, Between 0 (s.getD i 0) (e.getD i 0)) → ∀ d ∈ e :: p, ∀ i < s.length,
      Between 0 (d.getD i 0) (e.getD i 0) ∧ Between 0 (s.getD i 0) (d.getD i 0)
  | [], e, _, h, d, hd, i, hi => by
    obtain rfl : d = e := by simpa using hd
    have := h i hi
    unfold Between at this ⊢
    omega
  | e' :: p, e, hc, h, d, hd, i, hi => by
    rw [List.isChain_cons_cons] at hc
    have h' : ∀ i < s.length, Between 0 (s.getD i 0) (e'.getD i 0) := by
      intro i hi
      have h1 := h i hi
      have h2 := hc.1 i hi
      unfold Between TowardsOrStay at *
      omega
    rcases List.mem_cons.1 hd with rfl | hd
    · have := h i hi
      unfold Between at this ⊢
      omega
    · have h1 := h i hi
      have h2 := hc.1 i hi
      have h3 := chain_between hc.2 h' d hd i hi
      unfold Between TowardsOrStay at *
      omega

theorem chain_last {s d : List Int} : ∀ {p : List (List Int)} {e : List Int}, (e :: p).IsChain (Toward s) →
    (∀ i < s.length, Between 0 (s.getD i 0) (e.getD i 0)) → (e :: p).getLast? = some d → ∀ c ∈ e :: p,
      ∀ i < s.length, Between 0 (d.getD i 0) (c.getD i 0)
  | [], e, _, h, hd, c, hc, i, hi => by
    obtain rfl : c = e := by simpa using hc
    obtain rfl : c = d := by simpa using hd
    unfold Between
    omega
  | e' :: p, e, hc, h, hd, c, hmem, i, hi => by
    rcases List.mem_cons.1 hmem with rfl | hmem
    · exact (chain_between hc h d (List.mem_of_getLast? hd) i hi).1
    · have hc' := hc
      rw [List.isChain_cons_cons] at hc
      exact chain_last hc.2 (fun i hi => (chain_between hc' h e' (by simp) i hi).2)
        (by rwa [List.getLast?_cons_cons] at hd) c hmem i hi

/-- Each coordinate passes all values between its first and its last one. -/
theorem chain_passes {s : List Int} {a : Nat} (ha : a < s.length) {d : List Int} {j : Int} :
    ∀ {p : List (List Int)} {e : List Int}, (e :: p).IsChain (Toward s) → d ∈ e :: p →
      Between (e.getD a 0) (d.getD a 0) j → ∃ c ∈ e :: p, c.getD a 0 = j
  | [], e, _, hd, hj => by
    obtain rfl : d = e := by simpa using hd
    unfold Between at hj
    exact ⟨d, by simp, by omega⟩
  | e' :: p, e, hc, hd, hj => by
    rw [List.isChain_cons_cons] at hc
    by_cases he : e.getD a 0 = j
    · exact ⟨e, by simp, he⟩
    · rcases List.mem_cons.1 hd with rfl | hd
      · unfold Between at hj
        omega
      · have h2 := hc.1 a ha
        obtain ⟨c, hc', e'⟩ := chain_passes ha hc.2 hd (j := j) (by
          unfold Between TowardsOrStay at *
          omega)
        exact ⟨c, List.mem_cons_of_mem _ hc', e'⟩

theorem isChain_prefix {α : Type} {R : α → α → Prop} {p q : List α} (h : (p ++ q).IsChain R) : p.IsChain R :=
  (List.isChain_append.1 h).1

/-- The pixels of a path up to one on an axis are those of the axis in between. -/
theorem axis_prefix {s : List Int} {n a : Nat} (hn : s.length = n) (ha : a < n) {k : Int} {pre post : List (List Int)}
    (hc : (pre ++ axial n a k :: post).IsChain (Toward s))
    (hh : (pre ++ axial n a k :: post).head? = some (List.replicate n 0))
    (hl : ∀ e ∈ pre ++ axial n a k :: post, e.length = n) {Q : List Int → Prop} :
    (∀ e ∈ pre ++ [axial n a k], Q e) ↔ ∀ j, Between 0 k j → Q (axial n a j) := by
  have hc' : (pre ++ [axial n a k]).IsChain (Toward s) := by
    rw [show pre ++ axial n a k :: post = (pre ++ [axial n a k]) ++ post by simp] at hc
    exact isChain_prefix hc
  have hl' : ∀ e ∈ pre ++ [axial n a k], e.length = n := fun e he => hl e (by
    simp only [List.mem_append, List.mem_cons, List.not_mem_nil, or_false] at he ⊢
    tauto)
  have hmem : axial n a k ∈ pre ++ [axial n a k] := by simp
  have hh' : (pre ++ [axial n a k]).head? = some (List.replicate n 0) := by
    cases pre with
    | nil => simpa using hh
    | cons b pre => simpa using hh
  have hlast : (pre ++ [axial n a k]).getLast? = some (axial n a k) := by simp
  generalize pre ++ [axial n a k] = q at hc' hl' hmem hh' hlast
  cases q with
  | nil => simp at hmem
  | cons e q =>
    obtain rfl : e = List.replicate n 0 := by simpa using hh'
    have g0 : ∀ i, (List.replicate n (0 : Int)).getD i 0 = 0 := fun i => by
      rw [List.getD_eq_getElem?_getD, List.getElem?_replicate]
      split <;> rfl
    have hb0 : ∀ i < s.length, Between 0 (s.getD i 0) ((List.replicate n (0 : Int)).getD i 0) := fun i _ => by
      rw [g0]
      unfold Between
      omega
    constructor
    · intro h j hj
      obtain ⟨c, hc1, hc2⟩ := chain_passes (a := a) (j := j) (by omega) hc' hmem
        (by rw [g0, axial_getD ha, if_pos rfl]; exact hj)
      have : c = axial n a j := by
        refine ext_getD (by rw [hl' c hc1, axial_length]) fun i hi => ?_
        rw [hl' c hc1] at hi
        rw [axial_getD ha]
        split
        · rename_i e; rw [e]; exact hc2
        · rename_i hne
          have := chain_last hc' hb0 hlast c hc1 i (by omega)
          rw [axial_getD ha, if_neg hne] at this
          unfold Between at this
          omega
      rw [← this]
      exact h c hc1
    · intro h c hc1
      have hb := fun i hi => chain_last hc' hb0 hlast c hc1 i hi
      have : c = axial n a (c.getD a 0) := by
        refine ext_getD (by rw [hl' c hc1, axial_length]) fun i hi => ?_
        rw [hl' c hc1] at hi
        rw [axial_getD ha]
        split
        · rename_i e; rw [e]
        · rename_i hne
          have := hb i (by omega)
          rw [axial_getD ha, if_neg hne] at this
          unfold Between at this
          omega
      rw [this]
      apply h
      have := hb a (by omega)
      rwa [axial_getD ha, if_pos rfl] at this

theorem mem_takeWhile_iff {α : Type} {Q : α → Bool} {d : α} {post : List α} : ∀ {pre : List α}, d ∉ pre →
    (d ∈ (pre ++ d :: post).takeWhile Q ↔ ∀ e ∈ pre ++ [d], Q e = true)
  | [], _ => by
    by_cases h : Q d = true
    · simp [h]
    · simp [h]
  | b :: pre, hd => by
    rw [List.mem_cons, not_or] at hd
    have ih := mem_takeWhile_iff (Q := Q) (post := post) hd.2
    by_cases h : Q b = true
    · simp only [List.cons_append, List.takeWhile_cons, h, if_true, List.mem_cons, hd.1, false_or, ih,
        forall_eq_or_imp, true_and]
    · simp [h]

/-- How often an axial displacement is reached along one path. -/
theorem axis_count {junk : ℚ} {fuel : Nat} {mode : Path.Mode} (hr : roi.length ≤ 3) (hm : Enough fuel roi mode)
    {s : List Int} (hs : s ∈ edge roi) {p : List (List Int)} (hp : IsPath junk fuel mode roi s p)
    (hf : f.shape.length = roi.length) {a : Nat} (ha : a < roi.length) {k : Int} (hk : k ≠ 0) (x : List Int) :
    (p.takeWhile fun e => Lit periodic f x e).count (axial roi.length a k) =
      if Run periodic f a k x then p.count (axial roi.length a k) else 0 := by
  set d := axial roi.length a k with hd
  have hdne : d ≠ List.replicate roi.length 0 := by
    intro e
    rw [← axial_zero roi.length a, hd] at e
    have := congrArg (fun l => l.getD a 0) e
    simp only [axial_getD ha, if_true] at this
    exact hk this
  by_cases hdp : d ∈ p
  · by_cases h0 : s = List.replicate roi.length 0
    · exact absurd (hp.stay h0 d hdp) hdne
    · have hnd := hp.nodup h0
      obtain ⟨hc, -⟩ := isPath_towards hr hm hs h0 hp
      obtain ⟨i, hi, rfl⟩ := mem_edge hs
      have hsl := displacement_length (inbox_length hi)
      obtain ⟨rest, hrest⟩ := hp.head
      obtain ⟨pre, post, e⟩ := List.append_of_mem hdp
      have hdpre : d ∉ pre := by
        rw [e] at hnd
        intro h
        exact (List.nodup_append.1 hnd).2.2 d h d (by simp) rfl
      have key := axis_prefix (Q := fun e => Lit periodic f x e) hsl ha (e ▸ hc)
        (by rw [← e, hrest]; rfl) (fun c hc => (hp.mem c (e ▸ hc)).1)
      have hiff : d ∈ (p.takeWhile fun e => decide (Lit periodic f x e)) ↔ Run periodic f a k x := by
        rw [e, mem_takeWhile_iff hdpre]
        simp only [decide_eq_true_eq]
        rw [key]
        unfold Run
        rw [hf]
        constructor
        · intro h j hj
          apply h
          rcases lt_trichotomy k 0 with hk | hk | hk
          · rw [Int.sign_eq_neg_one_of_neg hk]; unfold Between; omega
          · omega
          · rw [Int.sign_eq_one_of_pos hk]; unfold Between; omega
        · intro h j hj
          have := h j.natAbs (by unfold Between at hj; omega)
          have ej : k.sign * (j.natAbs : Int) = j := by
            rcases lt_trichotomy k 0 with hk | hk | hk
            · rw [Int.sign_eq_neg_one_of_neg hk]; unfold Between at hj; omega
            · omega
            · rw [Int.sign_eq_one_of_pos hk]; unfold Between at hj; omega
          rwa [ej] at this
      have h1 : p.count d = 1 := List.count_eq_one_of_mem hnd hdp
      have hnd' := (List.takeWhile_sublist (fun e => decide (Lit periodic f x e)) (l := p)).nodup hnd
      split
      · rename_i hrun
        rw [h1]
        exact List.count_eq_one_of_mem hnd' (hiff.2 hrun)
      · rename_i hrun
        exact List.count_eq_zero.2 fun h => hrun (hiff.1 h)
  · rw [List.count_eq_zero.2 hdp, List.count_eq_zero.2 fun h => hdp ((List.takeWhile_sublist _).mem h)]
    simp

theorem displacement_getD {i : List Int} (hl : i.length = roi.length) {b : Nat} (hb : b < roi.length) :
    (displacement roi i).getD b 0 = i.getD b 0 - ((roi.getD b 0 - 1) / 2 : Nat) := by
  unfold displacement
  have h2 : b < i.length := by omega
  simp [List.getD_eq_getElem?_getD, hb, h2]

theorem inbox_getD {i : List Int} (hi : InBox roi i) {b : Nat} (hb : b < roi.length) :
    0 ≤ i.getD b 0 ∧ i.getD b 0 < roi.getD b 0 := by
  have hl := inbox_length hi
  have h2 : b < i.length := by omega
  have := List.forall₂_iff_get.1 hi |>.2 b hb h2
  simpa [List.getD_eq_getElem?_getD, hb, h2] using this

theorem inbox_of_getD {i : List Int} (hl : i.length = roi.length)
    (h : ∀ b < roi.length, 0 ≤ i.getD b 0 ∧ i.getD b 0 < roi.getD b 0) : InBox roi i := by
  refine List.forall₂_iff_get.2 ⟨by omega, fun b h1 h2 => ?_⟩
  have := h b h1
  simpa [List.getD_eq_getElem?_getD, h1, h2] using this

/-- There is a path along the axis through every axial displacement of the ROI. -/
theorem axis_edge (h0 : 0 ∉ roi) {i : List Int} (hi : InBox roi i) {a : Nat} (ha : a < roi.length) {k : Int}
    (hk : k ≠ 0) (hd : displacement roi i = axial roi.length a k) :
    ∃ m, axial roi.length a m ∈ edge roi ∧ m ≠ 0 ∧ Between 0 m k := by
  have hl := inbox_length hi
  have hpos : ∀ b < roi.length, 0 < roi.getD b 0 := by
    intro b hb
    refine Nat.pos_of_ne_zero fun h => h0 ?_
    rw [← h]
    simp [List.getD_eq_getElem?_getD, hb]
  have hka : k = i.getD a 0 - ((roi.getD a 0 - 1) / 2 : Nat) := by
    rw [← displacement_getD hl ha, hd, axial_getD ha, if_pos rfl]
  have hia := inbox_getD hi ha
  -- the index of the end of the axis
  have build : ∀ v : Int, 0 ≤ v → v < roi.getD a 0 → (v = 0 ∨ v = roi.getD a 0 - 1) →
      axial roi.length a (v - ((roi.getD a 0 - 1) / 2 : Nat)) ∈ edge roi := by
    intro v v0 v1 v2
    have gl : (ctr roi).length = roi.length := by simp [ctr]
    have gset : ∀ b < roi.length, ((ctr roi).set a v).getD b 0 =
        if b = a then v else ((roi.getD b 0 - 1) / 2 : Nat) := by
      intro b hb
      by_cases h : a = b
      · subst h
        simp [List.getD_eq_getElem?_getD, gl, ha]
      · rw [if_neg fun e => h e.symm]
        simp [List.getD_eq_getElem?_getD, h, ctr, hb]
    have hin : InBox roi ((ctr roi).set a v) := by
      refine inbox_of_getD (by simp [gl]) fun b hb => ?_
      rw [gset b hb]
      have := hpos b hb
      split
      · rename_i e; rw [e]; exact ⟨v0, v1⟩
      · omega
    have e : displacement roi ((ctr roi).set a v) = axial roi.length a (v - ((roi.getD a 0 - 1) / 2 : Nat)) := by
      refine ext_getD (by rw [displacement_length (by simp [gl]), axial_length]) fun b hb => ?_
      rw [displacement_length (by simp [gl])] at hb
      rw [displacement_getD (by simp [gl]) hb, gset b hb, axial_getD ha]
      split
      · rename_i e; rw [e]
      · omega
    rw [← e]
    refine List.mem_map_of_mem (List.mem_filter.2 ⟨mem_pixels.2 hin, ?_⟩)
    rw [decide_eq_true_eq]
    refine ⟨a, ha, by omega, ?_⟩
    rw [gset a ha, if_pos rfl]
    exact v2
  rcases lt_or_gt_of_ne hk with h | h
  · refine ⟨_, build 0 (le_refl _) (by omega) (Or.inl rfl), by omega, ?_⟩
    unfold Between
    omega
  · refine ⟨_, build (roi.getD a 0 - 1) (by omega) (by omega) (Or.inr rfl), by omega, ?_⟩
    unfold Between
    omega

/-! ### C93: L along an axis -/

/-- Along an axis L is, in all modes, the fraction of the pixels from which a run of nonzero pixels starts:
the pixel and the next `|k|` pixels in the direction of the displacement are all nonzero. -/
theorem C93_axis (L : Legal periodic f.shape roi) (h1 : ∃ n ∈ roi, 1 < n) (junk : ℚ) {fuel : Nat}
    {mode : Path.Mode} (hm : Enough fuel roi mode) (pow05 : K → K) (dbg : Bool) :
    ∃ r, Api.L pow05 dbg junk fuel roi f periodic mode = ok r ∧ r.shape = roi ∧
      ∀ i, InBox roi i → ∀ a < roi.length, ∀ k, displacement roi i = axial roi.length a k →
        val r i = (((pixels f.shape).filter fun x => Run periodic f a k x).length : K) /
          ((pixels f.shape).length : K) := by
  obtain ⟨r0, e0, hz⟩ := C45_origin_partial L h1 junk hm pow05 dbg
  obtain ⟨P, hP⟩ := choose_paths junk L.rank hm
  obtain ⟨r, hr1, hr2, h3⟩ := L_value L hP pow05 dbg
  rw [hr1] at e0
  cases e0
  refine ⟨r0, hr1, hr2, fun i hi a ha k hd => ?_⟩
  by_cases hk : k = 0
  · subst hk
    rw [axial_zero] at hd
    rw [hz i hi (by rw [hd]; exact fun a ha => List.eq_of_mem_replicate ha)]
    congr 2
    congr 1
    refine List.filter_congr fun x hx => ?_
    have hl0 := lit_zero (periodic := periodic) hx
    rw [decide_eq_decide, ← hl0]
    unfold Run
    constructor
    · intro h j hj
      rw [show (0 : Int).sign * (j : Int) = 0 by simp, axial_zero]
      exact h
    · intro h
      have := h 0 (by simp)
      rwa [show (0 : Int).sign * ((0 : Nat) : Int) = 0 by simp, axial_zero] at this
  · have := h3 i hi
    simp only at this
    rw [this, hd]
    set d := axial roi.length a k with hdd
    set n := ((pixels f.shape).filter fun x => decide (Run periodic f a k x)).length
    have key : reached periodic f ((edge roi).map P) d = visits ((edge roi).map P) d * n := by
      unfold reached visits
      have hP' : ∀ s ∈ edge roi, s ∈ edge roi ∧ IsPath junk fuel mode roi s (P s) := fun s hs => ⟨hs, hP s hs⟩
      revert hP'
      generalize hl : edge roi = l
      rw [← hl]
      suffices ∀ l : List (List Int), (∀ s ∈ l, s ∈ edge roi ∧ IsPath junk fuel mode roi s (P s)) →
          ((l.map P).map fun p => ((pixels f.shape).map fun x =>
            (p.takeWhile fun e => Lit periodic f x e).count d).sum).sum =
          ((l.map P).map fun p => p.count d).sum * n from this _
      clear hl l
      intro l hl
      induction l with
      | nil => simp
      | cons s l ih =>
        have h5 := ih fun s hs => hl s (List.mem_cons_of_mem _ hs)
        simp only [List.map_cons, List.sum_cons, Nat.add_mul] at h5 ⊢
        have h4 : ((pixels f.shape).map fun x => ((P s).takeWhile fun e => Lit periodic f x e).count d).sum =
            n * (P s).count d := by
          refine sum_eq_filter fun x hx => ?_
          rw [axis_count L.rank hm (hl s (by simp)).1 (hl s (by simp)).2 L.same ha hk x]
          simp only [decide_eq_true_eq]
          rfl
        rw [Nat.mul_comm] at h4
        omega
    have hv : 0 < visits ((edge roi).map P) d := by
      obtain ⟨m, hm1, hm2, hm3⟩ := axis_edge L.pos hi ha hk hd
      have hne : axial roi.length a m ≠ List.replicate roi.length 0 := by
        rw [← axial_zero roi.length a]
        intro e
        have := congrArg (fun l => l.getD a 0) e
        simp only [axial_getD ha, if_true] at this
        exact hm2 this
      have hp := hP _ hm1
      obtain ⟨hc, hlast⟩ := isPath_towards L.rank hm hm1 hne hp
      obtain ⟨rest, hrest⟩ := hp.head
      have g0 : ∀ i, (List.replicate roi.length (0 : Int)).getD i 0 = 0 := fun i => by
        rw [List.getD_eq_getElem?_getD, List.getElem?_replicate]
        split <;> rfl
      have hmem : d ∈ P (axial roi.length a m) := by
        have hc' := hc
        rw [hrest] at hc' hlast
        obtain ⟨c, hc1, hc2⟩ := chain_passes (a := a) (j := k) (by rw [axial_length]; exact ha) hc'
          (List.mem_of_getLast? hlast) (by rw [g0, axial_getD ha, if_pos rfl]; exact hm3)
        have hcl : c.length = roi.length := (hp.mem c (by rw [hrest]; exact hc1)).1
        have hb := chain_last hc' (fun i _ => by rw [g0]; unfold Between; omega) hlast c hc1
        have : c = d := by
          refine ext_getD (by rw [hcl, hdd, axial_length]) fun b hb' => ?_
          rw [hdd, axial_getD ha]
          split
          · rename_i e; rw [e]; exact hc2
          · rename_i hne
            have := hb b (by rw [axial_length]; omega)
            rw [axial_getD ha, if_neg hne] at this
            unfold Between at this
            omega
        rw [hrest, ← this]
        exact hc1
      have h4 : 0 < (P (axial roi.length a m)).count d := List.count_pos_iff.2 hmem
      unfold visits
      rw [List.map_map]
      exact lt_of_lt_of_le h4 (List.single_le_sum (by simp) _ (List.mem_map.2 ⟨_, hm1, rfl⟩))
    have e : (visits ((edge roi).map P) d : K) * ((pixels f.shape).length : K) =
        ((visits ((edge roi).map P) d * (pixels f.shape).length : Nat) : K) := by push_cast; rfl
    rw [e, ratio_eq (by rw [key]; exact Nat.mul_le_mul_left _ (List.length_filter_le _ _)), key]
    by_cases hN : (pixels f.shape).length = 0
    · simp [hN]
    · rw [if_neg (by positivity)]
      have : (visits ((edge roi).map P) d : K) ≠ 0 := by exact_mod_cast hv.ne'
      push_cast
      rw [mul_div_mul_left _ _ this]

/-- Along an axis L does not increase with the distance. -/
theorem C93_decreasing (L : Legal periodic f.shape roi) (h1 : ∃ n ∈ roi, 1 < n) (junk : ℚ) {fuel : Nat}
    {mode : Path.Mode} (hm : Enough fuel roi mode) (pow05 : K → K) (dbg : Bool) :
    ∃ r, Api.L pow05 dbg junk fuel roi f periodic mode = ok r ∧
      ∀ i i', InBox roi i → InBox roi i' → ∀ a < roi.length, ∀ k k',
        displacement roi i = axial roi.length a k → displacement roi i' = axial roi.length a k' →
        (0 ≤ k ∧ k ≤ k') ∨ (k' ≤ k ∧ k ≤ 0) → val r i' ≤ val r i := by
  obtain ⟨r, hr, -, h⟩ := C93_axis L h1 junk hm pow05 dbg
  refine ⟨r, hr, fun i i' hi hi' a ha k k' hk hk' hle => ?_⟩
  rw [h i hi a ha k hk, h i' hi' a ha k' hk']
  refine div_le_div_of_nonneg_right ?_ (by positivity)
  rw [Nat.cast_le]
  refine (List.monotone_filter_right _ fun x hx => ?_).length_le
  rw [decide_eq_true_eq] at hx ⊢
  intro j hj
  have := hx j (by omega)
  by_cases hj0 : j = 0
  · subst hj0
    simpa using this
  · have es : k.sign = k'.sign := by
      rcases hle with h | h
      · rw [Int.sign_eq_one_of_pos (by omega), Int.sign_eq_one_of_pos (by omega)]
      · rw [Int.sign_eq_neg_one_of_neg (by omega), Int.sign_eq_neg_one_of_neg (by omega)]
    rwa [es]

/-! ### C94: L of opposite displacements -/

theorem move_move : ∀ {x d e : List Int}, d.length = x.length → e.length = x.length →
    move (move x d) e = move x (move d e)
  | [], [], [], _, _ => rfl
  | a :: x, b :: d, c :: e, h1, h2 => by
    have ih := move_move (x := x) (d := d) (e := e) (by simpa using h1) (by simpa using h2)
    simp only [move, List.zipWith_cons_cons, List.cons.injEq] at ih ⊢
    exact ⟨by omega, ih⟩

theorem target_target {s : List Nat} {x d e : List Int} (hx : x.length = s.length) (hd : d.length = s.length)
    (he : e.length = s.length) :
    target periodic s (target periodic s x d) e = target periodic s x (move d e) := by
  cases periodic with
  | true => exact shift_shift hx hd he
  | false => exact move_move (by omega) (by omega)

theorem axial_move {n a : Nat} (ha : a < n) (k l : Int) : move (axial n a k) (axial n a l) = axial n a (k + l) := by
  refine ext_getD (by simp [move, axial_length]) fun i hi => ?_
  have hn : i < n := by simpa [move, axial_length] using hi
  have h1 := axial_getD ha k i
  have h2 := axial_getD ha l i
  rw [axial_getD ha]
  rw [List.getD_eq_getElem?_getD] at h1 h2 ⊢
  have e1 : i < (axial n a k).length := by rw [axial_length]; exact hn
  have e2 : i < (axial n a l).length := by rw [axial_length]; exact hn
  simp only [move, List.getElem?_zipWith, List.getElem?_eq_getElem e1, List.getElem?_eq_getElem e2,
    Option.getD_some] at h1 h2 ⊢
  rw [h1, h2]
  split <;> omega

theorem axial_neg {n a : Nat} (ha : a < n) (k : Int) : neg (axial n a k) = axial n a (-k) := by
  refine ext_getD (by simp [neg, axial_length]) fun i hi => ?_
  have h1 := axial_getD ha k i
  have e1 : i < (axial n a k).length := by simpa [neg] using hi
  rw [axial_getD ha]
  rw [List.getD_eq_getElem?_getD] at h1 ⊢
  simp only [neg, List.getElem?_map, List.getElem?_eq_getElem e1, Option.getD_some, Option.map_some] at h1 ⊢
  rw [h1]
  split <;> omega

/-- The last pixel of a run is the first of the opposite run. -/
theorem run_turn {a : Nat} (ha : a < f.shape.length) {k : Int} {x : List Int} (hx : x ∈ pixels f.shape)
    (h : Run periodic f a k x) :
    target periodic f.shape x (axial f.shape.length a k) ∈ pixels f.shape ∧
      Run periodic f a (-k) (target periodic f.shape x (axial f.shape.length a k)) := by
  have e : ∀ k : Int, k.sign * (k.natAbs : Int) = k := Int.sign_mul_natAbs
  have h0 := h k.natAbs (le_refl _)
  rw [e] at h0
  refine ⟨h0.1, fun j hj => ?_⟩
  rw [Int.natAbs_neg] at hj
  have h1 := h (k.natAbs - j) (by omega)
  unfold Lit at h1 ⊢
  rw [target_target (inbox_length (mem_pixels.1 hx)) (axial_length _ _ _) (axial_length _ _ _), axial_move ha]
  have : k + (-k).sign * (j : Int) = k.sign * ((k.natAbs - j : Nat) : Int) := by
    rw [Nat.cast_sub hj, mul_sub, e, Int.sign_neg]
    ring
  rw [this]
  exact h1

theorem run_count_le {a : Nat} (ha : a < f.shape.length) (k : Int) :
    ((pixels f.shape).filter fun x => Run periodic f a k x).length ≤
      ((pixels f.shape).filter fun x => Run periodic f a (-k) x).length := by
  set T : List Int → List Int := fun x => target periodic f.shape x (axial f.shape.length a k)
  have hn : (((pixels f.shape).filter fun x => Run periodic f a k x).map T).Nodup := by
    refine List.Nodup.map_on ?_ ((pixels_nodup _).filter _)
    intro x hx y hy e
    have hx' := mem_pixels.1 (List.mem_filter.1 hx).1
    have hy' := mem_pixels.1 (List.mem_filter.1 hy).1
    have := congrArg (fun z => target periodic f.shape z (neg (axial f.shape.length a k))) e
    simpa only [T, target_neg hx' (axial_length _ _ _), target_neg hy' (axial_length _ _ _)] using this
  have := hn.subperm (l₂ := (pixels f.shape).filter fun x => Run periodic f a (-k) x) (by
    intro y hy
    obtain ⟨x, hx, rfl⟩ := List.mem_map.1 hy
    obtain ⟨hx1, hx2⟩ := List.mem_filter.1 hx
    obtain ⟨h1, h2⟩ := run_turn ha hx1 (by simpa using hx2)
    exact List.mem_filter.2 ⟨h1, by simpa using h2⟩)
  simpa using this.length_le

/-- L is the same at opposite displacements along an axis, for periodic and for other images.

Not proved, as it is false (`C94_violated`): the same for displacements that are not along an axis. -/
theorem C94_partial (L : Legal periodic f.shape roi) (h1 : ∃ n ∈ roi, 1 < n) (junk : ℚ) {fuel : Nat}
    {mode : Path.Mode} (hm : Enough fuel roi mode) (pow05 : K → K) (dbg : Bool) :
    ∃ r, Api.L pow05 dbg junk fuel roi f periodic mode = ok r ∧
      ∀ i i', InBox roi i → InBox roi i' → ∀ a < roi.length, ∀ k,
        displacement roi i = axial roi.length a k → displacement roi i' = axial roi.length a (-k) →
        val r i = val r i' := by
  obtain ⟨r, hr, -, h⟩ := C93_axis L h1 junk hm pow05 dbg
  refine ⟨r, hr, fun i i' hi hi' a ha k hk hk' => ?_⟩
  rw [h i hi a ha k hk, h i' hi' a ha (-k) hk']
  have ha' : a < f.shape.length := by rw [L.same]; exact ha
  have h2 := run_count_le (periodic := periodic) (f := f) ha' k
  have h3 := run_count_le (periodic := periodic) (f := f) ha' (-k)
  rw [neg_neg] at h3
  rw [le_antisymm h2 h3]

/-- An image of three nonzero pixels: those of the path to (1, 2). -/
def knight : Nd ℚ := Nd.ofList [3, 5] [1, 0, 0, 0, 0,  0, 1, 1, 0, 0,  0, 0, 0, 0, 0]

/-- L differs at opposite displacements of a periodic image: the path to (1, 2) passes (1, 1), but the path back
does not. -/
theorem C94_violated : ∃ (roi : List Nat) (f : Nd ℚ), Legal true f.shape roi ∧ (∃ n ∈ roi, 1 < n) ∧
    ∃ r, Api.L id true 0 0 roi f true .bresenham = ok r ∧
      displacement roi [2, 4] = [1, 2] ∧ displacement roi [0, 0] = [-1, -2] ∧
      val r [2, 4] = 1 / 15 ∧ val r [0, 0] = 0 := by
  refine ⟨[3, 5], knight, ⟨by decide, by decide, rfl, by simp [Fits, knight, Nd.ofList]⟩, by decide, ?_⟩
  have h : ((Api.L (K := ℚ) id true 0 0 [3, 5] knight true .bresenham).map fun r => (val r [2, 4], val r [0, 0])) =
      ok (1 / 15, 0) := by
    decide +kernel
  cases e : Api.L (K := ℚ) id true 0 0 [3, 5] knight true .bresenham with
  | ok r =>
    rw [e] at h
    simp only [Outcome.map, ok.injEq, Prod.mk.injEq] at h
    exact ⟨r, rfl, by decide, by decide, h.1, h.2⟩
  | throws => rw [e] at h; cases h
  | ub => rw [e] at h; cases h
  | diverge => rw [e] at h; cases h

/-- Concrete case for C93 and C94. -/
example : Legal true knight.shape [3, 5] ∧ (∃ n ∈ [3, 5], 1 < n) ∧ Enough 9 [3, 5] .actual ∧
    InBox [3, 5] [1, 4] ∧ displacement [3, 5] [1, 4] = axial 2 1 2 ∧
    Run true knight 1 1 [1, 1] ∧ ¬ Run true knight 1 2 [1, 1] :=
  ⟨⟨by decide, by decide, rfl, by simp [Fits, knight, Nd.ofList]⟩, by decide, fun _ => ⟨by decide, by decide⟩,
    by unfold InBox; decide, by decide, by decide +kernel, by decide +kernel⟩

end Verif.Props
