import Verif.Model.Cluster
import Verif.Lemmas.XTensor
import Mathlib.Data.Finset.Card
import Mathlib.Data.Finset.Range
import Mathlib.Data.List.Nodup

/-!
# `ClusterLabeller`: structural invariant and refinement to a naive labeller

The naive labeller keeps one label per pixel and relabels the whole image at each merge. The
lemmas of this file show that the arrays of the class (`label`, `renum`, `next`) represent the naive
labels as `renum[label[p]]`, after each step of each loop.
-/

namespace Verif.Cluster

open Verif Outcome

/-! ### reading and writing -/

theorem Vec.read_eq {α : Type} {v : Vec α} {i : Int} (h0 : 0 ≤ i) (h1 : i < v.size) :
    v.read i = ok (v.get i.toNat) := by
  simp [Vec.read, h0, h1]

theorem Vec.write_eq {α : Type} {v : Vec α} {i : Int} {a : α} (h0 : 0 ≤ i) (h1 : i < v.size) :
    v.write i a = ok ⟨v.size, fun k => if k = i.toNat then a else v.get k⟩ := by
  simp [Vec.write, h0, h1]

/-- `renum` and `next` as functions of integers. -/
def rn (s : State) (l : Int) : Int := s.renum.get l.toNat
def nx (s : State) (l : Int) : Int := s.next.get l.toNat

/-- The label that pixel `p` represents. -/
def abs (s : State) (p : Nat) : Int := rn s (s.label.get p)

/-! ### linked lists -/

/-- `l` is the list of labels met when following `nx` from `a` up to `-1`. -/
inductive Walk (nx : Int → Int) : Int → List Int → Prop
  | nil {a} : nx a = -1 → Walk nx a []
  | cons {a b l} : nx a = b → b ≠ -1 → Walk nx b l → Walk nx a (b :: l)

theorem Walk.det {nx : Int → Int} {a : Int} {l : List Int} (h : Walk nx a l) :
    ∀ {l' : List Int}, Walk nx a l' → l = l' := by
  induction h with
  | nil h1 =>
    intro l' h'
    cases h' with
    | nil => rfl
    | cons h2 h3 => rw [h1] at h2; exact absurd h2.symm h3
  | cons h1 h2 h3 ih =>
    intro l' h'
    cases h' with
    | nil h4 => rw [h4] at h1; exact absurd h1.symm h2
    | cons h4 h5 h6 =>
      rw [h1] at h4
      subst h4
      rw [ih h6]

theorem Walk.suffix {nx : Int → Int} {a : Int} {l : List Int} (h : Walk nx a l) :
    ∀ x ∈ l, ∃ l', Walk nx x l' ∧ l'.length < l.length := by
  induction h with
  | nil => simp
  | cons h1 h2 h3 ih =>
    intro x hx
    rcases List.mem_cons.1 hx with rfl | hx
    · exact ⟨_, h3, by simp⟩
    · obtain ⟨l', h4, h5⟩ := ih x hx
      exact ⟨l', h4, by simp; omega⟩

theorem Walk.nodup {nx : Int → Int} {a : Int} {l : List Int} (h : Walk nx a l) :
    (a :: l).Nodup := by
  have notmem : ∀ {a : Int} {l : List Int}, Walk nx a l → a ∉ l := by
    intro a l h hm
    obtain ⟨l', h1, h2⟩ := h.suffix a hm
    have := h.det h1
    subst this
    omega
  induction h with
  | nil h => simp
  | cons h1 h2 h3 ih =>
    refine List.nodup_cons.2 ⟨?_, ih⟩
    exact notmem (Walk.cons h1 h2 h3)

/-- A walk is not affected by changing `nx` elsewhere. -/
theorem Walk.congr {nx nx' : Int → Int} {a : Int} {l : List Int} (h : Walk nx a l)
    (he : ∀ x, x = a ∨ x ∈ l → nx' x = nx x) : Walk nx' a l := by
  induction h with
  | nil h1 => exact Walk.nil (by rw [he _ (Or.inl rfl), h1])
  | cons h1 h2 h3 ih =>
    refine Walk.cons (by rw [he _ (Or.inl rfl), h1]) h2 (ih fun x hx => he x ?_)
    rcases hx with rfl | hx
    · simp
    · simp [hx]

/-- Linking the last element of a list to another list concatenates the lists. -/
theorem Walk.append {nx nx' : Int → Int} {a b : Int} {l lb : List Int} (h : Walk nx a l)
    (hb : Walk nx' b lb) (hb1 : b ≠ -1)
    (hlast : nx' ((a :: l).getLast (by simp)) = b)
    (he : ∀ x, x = a ∨ x ∈ l → x ≠ (a :: l).getLast (by simp) → nx' x = nx x) :
    Walk nx' a (l ++ b :: lb) := by
  induction h with
  | nil h1 => exact Walk.cons (by simpa using hlast) hb1 hb
  | @cons a c l h1 h2 h3 ih =>
    have hn := (Walk.cons h1 h2 h3).nodup
    have hl : (a :: c :: l).getLast (by simp) = (c :: l).getLast (by simp) := by
      rw [List.getLast_cons]
    refine Walk.cons ?_ h2 (ih (by rw [← hl]; exact hlast) fun x hx hx' => he x ?_ (by rwa [hl]))
    · rw [he a (Or.inl rfl) ?_, h1]
      intro e
      rw [hl] at e
      have := List.getLast_mem (l := c :: l) (by simp)
      rw [← e] at this
      exact (List.nodup_cons.1 hn).1 this
    · rcases hx with rfl | hx
      · simp
      · simp [hx]

theorem Walk.length_le {nx : Int → Int} {a : Int} {l : List Int} {N : Nat} (h : Walk nx a l)
    (hb : ∀ x ∈ l, 0 ≤ x ∧ x ≤ N) : l.length ≤ N + 1 := by
  have hn : l.Nodup := (List.nodup_cons.1 h.nodup).2
  have hn' : (l.map Int.toNat).Nodup := by
    refine (List.nodup_map_iff_inj_on hn).2 fun x hx y hy e => ?_
    have := hb x hx; have := hb y hy; omega
  have hsub : (l.map Int.toNat).toFinset ⊆ Finset.range (N + 1) := by
    intro x hx
    simp only [List.mem_toFinset, List.mem_map] at hx
    obtain ⟨y, hy, rfl⟩ := hx
    have := hb y hy
    rw [Finset.mem_range]; omega
  have := Finset.card_le_card hsub
  rw [List.toFinset_card_of_nodup hn'] at this
  simpa using this

/-! ### the two loops of `merge_detail` -/

theorem setLoop_ok (next : Vec Int) (target : Int) {W : List Int} {i : Int}
    (hW : Walk (fun l => next.get l.toNat) i W) :
    ∀ (fuel : Nat) (renum : Vec Int), W.length < fuel →
      (0 ≤ i ∧ i < next.size) → (∀ x ∈ W, 0 ≤ x ∧ x < next.size ∧ x < renum.size) →
      ∃ renum', setLoop next target fuel i renum = ok renum' ∧ renum'.size = renum.size ∧
        ∀ x : Int, 0 ≤ x → renum'.get x.toNat = if x ∈ W then target else renum.get x.toNat := by
  induction hW with
  | @nil a h =>
    intro fuel renum hf hi _
    obtain ⟨f, rfl⟩ : ∃ f, fuel = f + 1 := ⟨fuel - 1, by simp at hf; omega⟩
    refine ⟨renum, ?_, rfl, by simp⟩
    simp [setLoop, Vec.read_eq hi.1 hi.2, Outcome.bind, h]
  | @cons a b l h1 h2 h3 ih =>
    intro fuel renum hf hi hb
    obtain ⟨f, rfl⟩ : ∃ f, fuel = f + 1 := ⟨fuel - 1, by simp at hf; omega⟩
    have hbb := hb b (by simp)
    obtain ⟨r', e1, e2, e3⟩ := ih f
      ⟨renum.size, fun k => if k = b.toNat then target else renum.get k⟩
      (by simpa using hf) ⟨hbb.1, hbb.2.1⟩ (fun x hx => hb x (by simp [hx]))
    refine ⟨r', ?_, e2, ?_⟩
    · simp [setLoop, Vec.read_eq hi.1 hi.2, Outcome.bind, h1, h2, Vec.write_eq hbb.1 hbb.2.2, e1]
    · intro x hx
      rw [e3 x hx]
      by_cases hxl : x ∈ l
      · simp [hxl]
      · by_cases hxb : x = b
        · subst hxb; simp
        · have : ¬ (x.toNat = b.toNat) := by omega
          simp [hxl, hxb, this]

theorem lastLoop_ok (next : Vec Int) {W : List Int} {a : Int}
    (hW : Walk (fun l => next.get l.toNat) a W) :
    ∀ (fuel : Nat), W.length < fuel → (0 ≤ a ∧ a < next.size) →
      (∀ x ∈ W, 0 ≤ x ∧ x < next.size) →
      lastLoop next fuel a = ok ((a :: W).getLast (by simp)) := by
  induction hW with
  | @nil a h =>
    intro fuel hf hi _
    obtain ⟨f, rfl⟩ : ∃ f, fuel = f + 1 := ⟨fuel - 1, by simp at hf; omega⟩
    simp [lastLoop, Vec.read_eq hi.1 hi.2, Outcome.bind, h]
  | @cons a b l h1 h2 h3 ih =>
    intro fuel hf hi hb
    obtain ⟨f, rfl⟩ : ∃ f, fuel = f + 1 := ⟨fuel - 1, by simp at hf; omega⟩
    have := ih f (by simpa using hf) (hb b (by simp)) (fun x hx => hb x (by simp [hx]))
    simp [lastLoop, Vec.read_eq hi.1 hi.2, Outcome.bind, h1, h2, this]

/-! ### the invariant -/

/-- Number of labelled pixels. -/
def nlabelled (s : State) (N : Nat) : Nat :=
  ((Finset.range N).filter fun p => s.label.get p ≠ 0).card

/-- The structural invariant of the class, for `N` pixels; it holds at every point between two
pixels (also with merges pending). -/
structure WF (N : Nat) (s : State) : Prop where
  lsz : s.label.size = N
  rsz : s.renum.size = N + 1
  nsz : s.next.size = N + 1
  new1 : 1 ≤ s.newLabel
  cnt : s.newLabel ≤ nlabelled s N + 1
  lab : ∀ p < N, 0 ≤ s.label.get p ∧ s.label.get p < s.newLabel
  ren : ∀ l : Int, 0 ≤ l → l ≤ N → 0 ≤ rn s l ∧ rn s l ≤ l ∧ (rn s l = 0 → l = 0)
  fresh : ∀ l : Int, s.newLabel ≤ l → l ≤ N → rn s l = l ∧ nx s l = -1
  root : ∀ p < N, rn s (abs s p) = abs s p
  chain : ∀ r : Int, 1 ≤ r → r < s.newLabel → rn s r = r →
    ∃ W, Walk (nx s) r W ∧ (∀ x ∈ W, 1 ≤ x ∧ x < s.newLabel ∧ rn s x = r) ∧
      ∀ p < N, abs s p = r → s.label.get p = r ∨ s.label.get p ∈ W
  live : ∀ r : Int, 1 ≤ r → r < s.newLabel → rn s r = r → ∃ p < N, abs s p = r

/-- No merges pending: the labels are final. -/
def Clean (N : Nat) (s : State) : Prop :=
  (∀ l : Int, 0 ≤ l → l ≤ N → nx s l = -1) ∧ ∀ p < N, abs s p = s.label.get p

theorem nlabelled_le (s : State) (N : Nat) : nlabelled s N ≤ N := by
  have := Finset.card_filter_le (Finset.range N) (fun p => s.label.get p ≠ 0)
  simpa [nlabelled] using this

theorem WF.newle {N : Nat} {s : State} (h : WF N s) : s.newLabel ≤ N + 1 := by
  have := h.cnt; have := nlabelled_le s N; omega

theorem WF.ren0 {N : Nat} {s : State} (h : WF N s) : rn s 0 = 0 := by
  have := h.ren 0 (by omega) (by omega); omega

theorem WF.abs_range {N : Nat} {s : State} (h : WF N s) {p : Nat} (hp : p < N) :
    0 ≤ abs s p ∧ abs s p < s.newLabel := by
  have h1 := h.lab p hp
  have h2 := h.newle
  have h3 := h.ren (s.label.get p) h1.1 (by omega)
  unfold abs
  omega

theorem WF.abs_zero {N : Nat} {s : State} (h : WF N s) {p : Nat} (hp : p < N) :
    abs s p = 0 ↔ s.label.get p = 0 := by
  have h1 := h.lab p hp
  have h2 := h.newle
  have h3 := h.ren (s.label.get p) h1.1 (by omega)
  unfold abs
  constructor
  · exact h3.2.2
  · intro e; rw [e]; exact h.ren0

/-- `merge_detail(a, b)` for two different clusters `a < b`. -/
theorem mergeDetail_ok {N : Nat} {s : State} (h : WF N s) {a b : Int} (ha : 1 ≤ a) (hab : a < b)
    (hb : b < s.newLabel) (hra : rn s a = a) (hrb : rn s b = b) :
    ∃ s', mergeDetail s a b = ok s' ∧ WF N s' ∧
      s'.label = s.label ∧ s'.newLabel = s.newLabel ∧ s'.nmerge = s.nmerge ∧
      s'.periodic = s.periodic ∧ s'.shape = s.shape ∧ s'.dx = s.dx ∧
      (∀ r : Int, 1 ≤ r → r < s.newLabel → rn s r = r → r ≠ b → rn s' r = r) ∧
      ∀ p < N, abs s' p = if abs s p = b then a else abs s p := by
  have hnew := h.newle
  obtain ⟨Wa, hWa, hWa', hWa''⟩ := h.chain a ha (by omega) hra
  obtain ⟨Wb, hWb, hWb', hWb''⟩ := h.chain b (by omega) hb hrb
  have hla := hWa.length_le (N := N) (fun x hx => by have := hWa' x hx; omega)
  have hlb := hWb.length_le (N := N) (fun x hx => by have := hWb' x hx; omega)
  -- first loop
  let renum1 : Vec Int := ⟨s.renum.size, fun k => if k = b.toNat then a else s.renum.get k⟩
  obtain ⟨renum2, e1, e2, e3⟩ := setLoop_ok s.next a (W := Wb) (i := b) hWb
    (s.next.size + 1) renum1 (by rw [h.nsz]; omega) (by rw [h.nsz]; omega)
    (fun x hx => by
      have := hWb' x hx
      refine ⟨by omega, by rw [h.nsz]; push_cast; omega, by simp only [renum1, h.rsz]; push_cast; omega⟩)
  -- second loop
  have e4 := lastLoop_ok s.next (W := Wa) (a := a) hWa (s.next.size + 1) (by rw [h.nsz]; omega)
    (by rw [h.nsz]; omega)
    (fun x hx => by have := hWa' x hx; refine ⟨by omega, by rw [h.nsz]; push_cast; omega⟩)
  set last := (a :: Wa).getLast (by simp) with hlast
  have hlast_mem : last = a ∨ last ∈ Wa := by
    have := List.getLast_mem (l := a :: Wa) (by simp)
    rw [← hlast] at this
    exact List.mem_cons.1 this
  have hlast_rn : rn s last = a ∧ 1 ≤ last ∧ last < s.newLabel := by
    rcases hlast_mem with e | e
    · rw [e]; exact ⟨hra, ha, by omega⟩
    · have := hWa' _ e; exact ⟨this.2.2, this.1, this.2.1⟩
  let s' : State := { s with
    renum := renum2
    next := ⟨s.next.size, fun k => if k = last.toNat then b else s.next.get k⟩ }
  have hrun : mergeDetail s a b = ok s' := by
    have r1 : s.renum.read b = ok b := by
      rw [Vec.read_eq (by omega) (by rw [h.rsz]; push_cast; omega)]; exact congrArg ok hrb
    have r2 : s.renum.read a = ok a := by
      rw [Vec.read_eq (by omega) (by rw [h.rsz]; push_cast; omega)]; exact congrArg ok hra
    have r3 : s.renum.write b a = ok renum1 :=
      Vec.write_eq (by omega) (by rw [h.rsz]; push_cast; omega)
    have r4 : s.next.write last b = ok s'.next :=
      Vec.write_eq (by omega) (by rw [h.nsz]; push_cast; omega)
    unfold mergeDetail
    rw [r1, r2]
    simp only [Outcome.bind]
    rw [r3]
    simp only
    rw [e1]
    simp only
    rw [e4]
    simp only
    rw [r4]
  have hrn' : ∀ x : Int, 0 ≤ x → rn s' x = if x = b ∨ x ∈ Wb then a else rn s x := by
    intro x hx
    show renum2.get x.toNat = _
    rw [e3 x hx]
    by_cases h1 : x ∈ Wb
    · simp [h1]
    · by_cases h2 : x = b
      · subst h2; simp [renum1]
      · have : ¬ (x.toNat = b.toNat) := by omega
        simp [h1, h2, renum1, this, rn]
  have hnx' : ∀ x : Int, 0 ≤ x → nx s' x = if x = last then b else nx s x := by
    intro x hx
    show (if x.toNat = last.toNat then b else s.next.get x.toNat) = _
    by_cases h2 : x = last
    · subst h2; simp
    · have : ¬ (x.toNat = last.toNat) := by omega
      simp [h2, this, nx]
  -- elements of the list of `b` are the labels whose head was `b`
  have habs : ∀ p < N, abs s' p = if abs s p = b then a else abs s p := by
    intro p hp
    have hl := h.lab p hp
    show rn s' (s.label.get p) = _
    rw [hrn' _ hl.1]
    by_cases hp' : abs s p = b
    · rw [if_pos hp', if_pos (hWb'' p hp hp')]
    · rw [if_neg hp', if_neg]
      · rfl
      · rintro (e | e)
        · apply hp'
          show rn s (s.label.get p) = b
          rw [e]; exact hrb
        · exact hp' (hWb' _ e).2.2
  have hroot : ∀ r : Int, 1 ≤ r → rn s r = r → r ≠ b → rn s' r = r := by
    intro r h1 h3 h4
    rw [hrn' r (by omega), if_neg, h3]
    rintro (e | e)
    · exact h4 e
    · have := (hWb' _ e).2.2
      omega
  refine ⟨s', hrun, ?_, rfl, rfl, rfl, rfl, rfl, rfl, fun r h1 _ h3 h4 => hroot r h1 h3 h4, habs⟩
  refine
    { lsz := h.lsz
      rsz := by rw [← h.rsz]; exact e2
      nsz := h.nsz
      new1 := h.new1
      cnt := h.cnt
      lab := h.lab
      ren := ?_
      fresh := ?_
      root := ?_
      chain := ?_
      live := ?_ }
  · intro l h0 h1
    have := h.ren l h0 h1
    rw [hrn' l h0]
    split
    · rename_i hc
      rcases hc with rfl | hc
      · omega
      · have h2 := hWb' l hc
        have : rn s l = b := h2.2.2
        omega
    · exact this
  · intro l h0 h1
    have h0' : s.newLabel ≤ l := h0
    have := h.fresh l h0 h1
    have hl1 : 1 ≤ l := by have := h.new1; omega
    rw [hrn' l (by omega), hnx' l (by omega), if_neg, if_neg]
    · exact this
    · intro e; omega
    · rintro (e | e)
      · omega
      · have := hWb' _ e; omega
  · intro p hp
    rw [habs p hp]
    split
    · exact hroot a ha hra (by omega)
    · rename_i hne
      by_cases h0 : abs s p = 0
      · rw [h0, hrn' 0 (by omega), if_neg]
        · exact h.ren0
        · rintro (e | e)
          · omega
          · have := hWb' _ e; omega
      · have := h.abs_range hp
        exact hroot _ (by omega) (h.root p hp) hne
  · intro r hr1 hr2 hr3
    have hrb' : r ≠ b := by
      intro e
      rw [e, hrn' b (by omega)] at hr3
      simp at hr3
      omega
    -- `r` was a root before
    have hr3' : rn s r = r := by
      rw [hrn' r (by omega)] at hr3
      split at hr3
      · rename_i hc
        rcases hc with e | e
        · exact absurd e hrb'
        · -- an element of the list of `b` has head `a ≠ r`
          subst hr3
          exact hra
      · exact hr3
    by_cases hra' : r = a
    · subst hra'
      have hdisj : ∀ x, x = b ∨ x ∈ Wb → x ≠ last := by
        intro x hx e
        have h1 : rn s x = b := by
          rcases hx with rfl | hx
          · exact hrb
          · exact (hWb' x hx).2.2
        rw [e] at h1
        omega
      have hnn : ∀ x, x = b ∨ x ∈ Wb → 0 ≤ x := by
        rintro x (rfl | hx)
        · omega
        · have := hWb' x hx; omega
      have hWb2 : Walk (nx s') b Wb := hWb.congr fun x hx => by
        rw [hnx' x (hnn x hx), if_neg (hdisj x hx)]
      have hW' : Walk (nx s') r (Wa ++ b :: Wb) := by
        refine Walk.append hWa hWb2 (by omega) ?_ ?_
        · rw [← hlast, hnx' last (by omega)]; simp
        · intro x hx hx'
          rw [← hlast] at hx'
          have : 0 ≤ x := by
            rcases hx with rfl | hx
            · omega
            · have := hWa' x hx; omega
          rw [hnx' x this, if_neg hx']
      refine ⟨_, hW', ?_, ?_⟩
      · intro x hx
        rcases List.mem_append.1 hx with hx | hx
        · have hh := hWa' x hx
          refine ⟨hh.1, hh.2.1, ?_⟩
          rw [hrn' x (by omega)]
          split
          · rfl
          · exact hh.2.2
        · have : x = b ∨ x ∈ Wb := by simpa using hx
          refine ⟨?_, ?_, ?_⟩
          · rcases this with rfl | hx
            · omega
            · exact (hWb' x hx).1
          · rcases this with rfl | hx
            · exact hb
            · exact (hWb' x hx).2.1
          · rw [hrn' x (hnn x this), if_pos this]
      · intro p hp e
        rw [habs p hp] at e
        show s.label.get p = r ∨ s.label.get p ∈ Wa ++ b :: Wb
        by_cases hpb : abs s p = b
        · right
          rcases hWb'' p hp hpb with e' | e'
          · simp [e']
          · simp [e']
        · rw [if_neg hpb] at e
          rcases hWa'' p hp e with e' | e'
          · left; exact e'
          · right; simp [e']
    · obtain ⟨W, hW, hW', hW''⟩ := h.chain r hr1 hr2 hr3'
      have hrnW : ∀ x, x = r ∨ x ∈ W → rn s x = r ∧ 0 ≤ x := by
        rintro x (rfl | hx)
        · exact ⟨hr3', by omega⟩
        · have := hW' x hx; exact ⟨this.2.2, by omega⟩
      refine ⟨W, hW.congr fun x hx => ?_, ?_, ?_⟩
      · have := hrnW x hx
        rw [hnx' x this.2, if_neg]
        intro e
        rw [e] at this
        omega
      · intro x hx
        have h1 := hW' x hx
        refine ⟨h1.1, h1.2.1, ?_⟩
        rw [hrn' x (by omega), if_neg]
        · exact h1.2.2
        · rintro (e | e)
          · rw [e, hrb] at h1; omega
          · have := (hWb' x e).2.2; omega
      · intro p hp e
        rw [habs p hp] at e
        show s.label.get p = r ∨ s.label.get p ∈ W
        split at e
        · exact absurd e.symm hra'
        · exact hW'' p hp e
  · intro r hr1 hr2 hr3
    have hrb' : r ≠ b := by
      intro e
      rw [e, hrn' b (by omega)] at hr3
      simp at hr3
      omega
    have hr3' : rn s r = r := by
      rw [hrn' r (by omega)] at hr3
      split at hr3
      · subst hr3; exact hra
      · exact hr3
    obtain ⟨p, hp, e⟩ := h.live r hr1 hr2 hr3'
    refine ⟨p, hp, ?_⟩
    rw [habs p hp, e, if_neg hrb']

end Verif.Cluster
