import Verif.Clustering.Ahc
import Verif.NpLemmas
import Mathlib.Data.Finset.Card
import Mathlib.Data.Finset.Image
import Mathlib.Data.Finset.Range
import Mathlib.Data.List.Nodup
import Mathlib.Logic.Relation

/-! # C38: flat clusters -/

namespace Hyp.Clustering

open Hyp

variable {K : Type}

/-- A dendrogram of `Z.length + 1` points: row `i` merges two different clusters, among the points `0..N-1` and the
clusters `N..N+i-1` made by the rows before, and no cluster is merged twice. -/
structure Valid (Z : List (Merge K)) : Prop where
  ne : ∀ i (hi : i < Z.length), Z[i].a ≠ Z[i].b
  lt : ∀ i (hi : i < Z.length), Z[i].a < Z.length + 1 + i ∧ Z[i].b < Z.length + 1 + i
  once : ∀ i j (hi : i < Z.length) (hj : j < Z.length), i < j →
    Z[i].a ≠ Z[j].a ∧ Z[i].a ≠ Z[j].b ∧ Z[i].b ≠ Z[j].a ∧ Z[i].b ≠ Z[j].b

/-- Specification: one of the first `p` rows of the dendrogram puts cluster `u` into cluster `v`. -/
def Link (Z : List (Merge K)) (p u v : Nat) : Prop :=
  ∃ (i : Nat) (hi : i < Z.length), i < p ∧ v = Z.length + 1 + i ∧ (u = Z[i].a ∨ u = Z[i].b)

/-- Specification: points joined by the first `p` merges. -/
def Joined (Z : List (Merge K)) (p x y : Nat) : Prop := Relation.EqvGen (Link Z p) x y

/-- the cluster a node is in after `p` merges. -/
def rep (Z : List (Merge K)) : Nat → Nat → Nat
  | 0, u => u
  | p + 1, u =>
    match Z[p]? with
    | some m => if rep Z p u = m.a ∨ rep Z p u = m.b then Z.length + 1 + p else rep Z p u
    | none => rep Z p u

theorem rep_succ {Z : List (Merge K)} {p : Nat} (hp : p < Z.length) (u : Nat) :
    rep Z (p + 1) u = if rep Z p u = Z[p].a ∨ rep Z p u = Z[p].b then Z.length + 1 + p else rep Z p u := by
  rw [rep, List.getElem?_eq_getElem hp]

theorem flatLoop_rep (Z : List (Merge K)) (l : List Nat) (p : Nat) (hp : p ≤ Z.length) :
    flatLoop (Z.length + 1) (Z.take p) 0 l = l.map (rep Z p) := by
  have key : ∀ (q i : Nat), i + q = p → flatLoop (Z.length + 1) ((Z.take p).drop i) i (l.map (rep Z i)) = l.map (rep Z p) := by
    intro q
    induction q with
    | zero =>
      intro i hi
      have : i = p := by omega
      subst this
      rw [List.drop_of_length_le (by simp)]
      rfl
    | succ q ih =>
      intro i hi
      have hip : i < Z.length := by omega
      have hlt : i < (Z.take p).length := by rw [List.length_take]; omega
      rw [List.drop_eq_getElem_cons hlt, flatLoop, List.map_map]
      have e : (List.map ((fun c => if c = ((Z.take p)[i]).a ∨ c = ((Z.take p)[i]).b then Z.length + 1 + i else c) ∘ rep Z i) l) = l.map (rep Z (i + 1)) := by
        apply List.map_congr_left
        intro u _
        rw [rep_succ hip]
        simp [List.getElem_take]
      rw [e]
      exact ih (i + 1) (by omega)
  have := key p 0 (by omega)
  have h0 : l.map (rep Z 0) = l := by
    conv_rhs => rw [← List.map_id l]
    apply List.map_congr_left; intro u _; rfl
  rw [h0, List.drop_zero] at this
  exact this

theorem rep_congr {Z : List (Merge K)} {u v q : Nat} (h : rep Z q u = rep Z q v) (d : Nat) : rep Z (q + d) u = rep Z (q + d) v := by
  induction d with
  | zero => exact h
  | succ d ih => rw [← Nat.add_assoc, rep, rep, ih]

/-- a cluster not merged yet is its own representative. -/
theorem rep_self {Z : List (Merge K)} {u p : Nat} (hp : p ≤ Z.length)
    (h : ∀ i (hi : i < Z.length), i < p → u ≠ Z[i].a ∧ u ≠ Z[i].b) : rep Z p u = u := by
  induction p with
  | zero => rfl
  | succ p ih =>
    have e := ih (by omega) (fun i hi hip => h i hi (by omega))
    rw [rep_succ (by omega), e, if_neg]
    have := h p (by omega) (by omega)
    rintro (h' | h')
    · exact this.1 h'
    · exact this.2 h'

theorem rep_new {Z : List (Merge K)} (hZ : Valid Z) {p : Nat} (hp : p < Z.length) : rep Z (p + 1) (Z.length + 1 + p) = Z.length + 1 + p := by
  apply rep_self (by omega)
  intro i hi hip
  have := hZ.lt i hi
  omega

theorem rep_a {Z : List (Merge K)} (hZ : Valid Z) {p : Nat} (hp : p < Z.length) : rep Z p Z[p].a = Z[p].a ∧ rep Z p Z[p].b = Z[p].b := by
  constructor <;> apply rep_self (by omega) <;> intro i hi hip <;> have := hZ.once i p hi hp hip
  · exact ⟨this.1.symm, this.2.2.1.symm⟩
  · exact ⟨this.2.1.symm, this.2.2.2.symm⟩

/-- representatives respect the links. -/
theorem rep_link {Z : List (Merge K)} (hZ : Valid Z) {p u v : Nat} (hp : p ≤ Z.length) (h : Link Z p u v) : rep Z p u = rep Z p v := by
  obtain ⟨i, hi, hip, rfl, hu⟩ := h
  have key : rep Z (i + 1) u = rep Z (i + 1) (Z.length + 1 + i) := by
    rw [rep_new hZ hi, rep_succ hi]
    have := rep_a hZ hi
    rcases hu with rfl | rfl
    · rw [this.1, if_pos (Or.inl rfl)]
    · rw [this.2, if_pos (Or.inr rfl)]
  have := rep_congr key (p - (i + 1))
  rwa [show i + 1 + (p - (i + 1)) = p by omega] at this

theorem joined_mono {Z : List (Merge K)} {p q x y : Nat} (hpq : p ≤ q) (h : Joined Z p x y) : Joined Z q x y := by
  refine Relation.EqvGen.mono (fun u v => ?_) x y h
  rintro ⟨i, hi, hip, rest⟩
  exact ⟨i, hi, by omega, rest⟩

theorem joined_rep (Z : List (Merge K)) (p u : Nat) (hp : p ≤ Z.length) : Joined Z p u (rep Z p u) := by
  induction p with
  | zero => exact Relation.EqvGen.refl u
  | succ p ih =>
    have := joined_mono (show p ≤ p + 1 by omega) (ih (by omega))
    rw [rep_succ (by omega)]
    split
    · rename_i h
      refine Relation.EqvGen.trans _ _ _ this (Relation.EqvGen.rel _ _ ?_)
      exact ⟨p, by omega, by omega, rfl, h⟩
    · exact this

theorem joined_iff {Z : List (Merge K)} (hZ : Valid Z) {p x y : Nat} (hp : p ≤ Z.length) : Joined Z p x y ↔ rep Z p x = rep Z p y := by
  constructor
  · intro h
    induction h with
    | rel u v h => exact rep_link hZ hp h
    | refl u => rfl
    | symm u v _ ih => exact ih.symm
    | trans u v w _ _ ih1 ih2 => exact ih1.trans ih2
  · intro h
    have h1 := joined_rep Z p x hp
    have h2 := joined_rep Z p y hp
    rw [h] at h1
    exact Relation.EqvGen.trans _ _ _ h1 (Relation.EqvGen.symm _ _ h2)

/-- every cluster not merged contains a point. -/
theorem exists_leaf {Z : List (Merge K)} (hZ : Valid Z) : ∀ (u p : Nat), p ≤ Z.length → u < Z.length + 1 + p → rep Z p u = u →
    ∃ x, x < Z.length + 1 ∧ rep Z p x = u := by
  intro u
  induction u using Nat.strong_induction_on with
  | _ u ih =>
    intro p hp hu hr
    rcases Nat.lt_or_ge u (Z.length + 1) with h | h
    · exact ⟨u, h, hr⟩
    · obtain ⟨j, rfl⟩ : ∃ j, u = Z.length + 1 + j := ⟨u - (Z.length + 1), by omega⟩
      have hj : j < Z.length := by omega
      have ha := (hZ.lt j hj).1
      obtain ⟨x, hx, hxr⟩ := ih Z[j].a ha j (by omega) ha (rep_a hZ hj).1
      refine ⟨x, hx, ?_⟩
      have e : rep Z (j + 1) x = rep Z (j + 1) (Z.length + 1 + j) := by
        rw [rep_new hZ hj, rep_succ hj, hxr, if_pos (Or.inl rfl)]
      have := rep_congr e (p - (j + 1))
      rw [show j + 1 + (p - (j + 1)) = p by omega, hr] at this
      exact this

theorem rep_lt {Z : List (Merge K)} (p u : Nat) (hp : p ≤ Z.length) (hu : u < Z.length + 1) : rep Z p u < Z.length + 1 + p := by
  induction p with
  | zero => exact hu
  | succ p ih =>
    have := ih (by omega)
    rw [rep_succ (by omega)]
    split <;> omega

/-- each merge reduces the number of clusters by one. -/
theorem card_clusters {Z : List (Merge K)} (hZ : Valid Z) (p : Nat) (hp : p ≤ Z.length) :
    ((Finset.range (Z.length + 1)).image (rep Z p)).card + p = Z.length + 1 := by
  induction p with
  | zero =>
    have : (Finset.range (Z.length + 1)).image (rep Z 0) = Finset.range (Z.length + 1) := by
      ext x; simp [rep]
    rw [this]; simp
  | succ p ih =>
    have hp' : p < Z.length := by omega
    have ih := ih (by omega)
    set S := (Finset.range (Z.length + 1)).image (rep Z p) with hS
    let g : Nat → Nat := fun c => if c = Z[p].a ∨ c = Z[p].b then Z.length + 1 + p else c
    have hlt : ∀ c ∈ S, c < Z.length + 1 + p := by
      intro c hc
      obtain ⟨x, hx, rfl⟩ := Finset.mem_image.1 hc
      exact rep_lt p x (by omega) (Finset.mem_range.1 hx)
    have hmem : ∀ u, u < Z.length + 1 + p → rep Z p u = u → u ∈ S := by
      intro u hu hr
      obtain ⟨x, hx, hxr⟩ := exists_leaf hZ u p (by omega) hu hr
      exact Finset.mem_image.2 ⟨x, Finset.mem_range.2 hx, hxr⟩
    have haS : Z[p].a ∈ S := hmem _ (hZ.lt p hp').1 (rep_a hZ hp').1
    have hbS : Z[p].b ∈ S := hmem _ (hZ.lt p hp').2 (rep_a hZ hp').2
    have himg : (Finset.range (Z.length + 1)).image (rep Z (p + 1)) = (S.erase Z[p].b).image g := by
      ext c
      simp only [Finset.mem_image, Finset.mem_range, Finset.mem_erase]
      constructor
      · rintro ⟨x, hx, rfl⟩
        have hxS : rep Z p x ∈ S := Finset.mem_image.2 ⟨x, Finset.mem_range.2 hx, rfl⟩
        rw [rep_succ hp']
        by_cases hb : rep Z p x = Z[p].b
        · refine ⟨Z[p].a, ⟨hZ.ne p hp', haS⟩, ?_⟩
          simp [g, hb]
        · exact ⟨rep Z p x, ⟨hb, hxS⟩, rfl⟩
      · rintro ⟨u, ⟨_, huS⟩, rfl⟩
        obtain ⟨x, hx, rfl⟩ := Finset.mem_image.1 huS
        exact ⟨x, Finset.mem_range.1 hx, by rw [rep_succ hp']⟩
    have hinj : Set.InjOn g (S.erase Z[p].b) := by
      intro u hu v hv huv
      have hu' := Finset.mem_erase.1 hu
      have hv' := Finset.mem_erase.1 hv
      have l1 := hlt u hu'.2
      have l2 := hlt v hv'.2
      simp only [g] at huv
      split at huv <;> split at huv
      · rename_i h1 h2
        rcases h1 with h1 | h1
        · rcases h2 with h2 | h2
          · rw [h1, h2]
          · exact absurd h2 hv'.1
        · exact absurd h1 hu'.1
      · omega
      · omega
      · exact huv
    rw [himg, Finset.card_image_of_injOn hinj, Finset.card_erase_of_mem hbS]
    have : 0 < S.card := Finset.card_pos.2 ⟨_, haS⟩
    omega

theorem mem_npUnique (l : List Nat) (x : Nat) : x ∈ npUnique l ↔ x ∈ l := by
  unfold npUnique
  induction l with
  | nil => simp
  | cons a l ih => rw [List.foldr_cons, mem_insU, ih, List.mem_cons]

theorem npUnique_card (l : List Nat) : (npUnique l).length = l.toFinset.card := by
  have : l.toFinset = (npUnique l).toFinset := by ext x; simp [mem_npUnique]
  rw [this, List.toFinset_card_of_nodup (npUnique_nodup l)]

theorem npInverse_get (l : List Nat) (i : Nat) (hi : i < l.length) : (npInverse l)[i]? = some ((npUnique l).idxOf l[i]) := by
  simp [npInverse, hi]

/-! ## C38 -/

/-- With `1 ≤ k ≤ N` clusters asked for, every point gets a label, the labels are exactly `0..k-1`, and two points have the
same label iff they are joined by the first `N - k` merges. -/
theorem C38_num_clusters (Z : List (Merge K)) (hZ : Valid Z) (k : Nat) (h1 : 1 ≤ k) (h2 : k ≤ Z.length + 1) :
    ∃ labels, flatFromNum Z k = some labels ∧ labels.length = Z.length + 1 ∧ (∀ c, c ∈ labels ↔ c < k) ∧
      ∀ x y, x < Z.length + 1 → y < Z.length + 1 →
        (labels[x]? = labels[y]? ↔ Joined Z (Z.length + 1 - k) x y) := by
  have hp : ((((Z.length + 1 : Nat) : Int)) - min ((Z.length + 1 : Nat) : Int) (k : Int)).toNat = Z.length + 1 - k := by omega
  have hpl : Z.length + 1 - k ≤ Z.length := by omega
  refine ⟨npInverse ((List.range (Z.length + 1)).map (rep Z (Z.length + 1 - k))), ?_, ?_, ?_, ?_⟩
  · unfold flatFromNum
    simp only [hp]
    rw [if_neg (by omega), flatLoop_rep _ _ _ hpl]
  · simp [npInverse_length]
  · have hcard : (npUnique ((List.range (Z.length + 1)).map (rep Z (Z.length + 1 - k)))).length = k := by
      rw [npUnique_card]
      have e : ((List.range (Z.length + 1)).map (rep Z (Z.length + 1 - k))).toFinset =
          (Finset.range (Z.length + 1)).image (rep Z (Z.length + 1 - k)) := by
        ext x; simp
      rw [e]
      have := card_clusters hZ (Z.length + 1 - k) hpl
      omega
    intro c
    constructor
    · intro hc
      have := npInverse_lt hc
      rwa [hcard] at this
    · intro hc
      rw [← hcard] at hc
      set l := (List.range (Z.length + 1)).map (rep Z (Z.length + 1 - k)) with hl
      have hm : (npUnique l)[c] ∈ l := (mem_npUnique l _).1 (List.getElem_mem hc)
      obtain ⟨i, hi, hie⟩ := List.getElem_of_mem hm
      have := npInverse_get l i hi
      rw [hie, List.Nodup.idxOf_getElem (npUnique_nodup l) c hc] at this
      exact List.mem_of_getElem? this
  · intro x y hx hy
    set l := (List.range (Z.length + 1)).map (rep Z (Z.length + 1 - k)) with hl
    have hlen : l.length = Z.length + 1 := by simp [hl]
    rw [npInverse_get l x (by omega), npInverse_get l y (by omega), joined_iff hZ hpl]
    have gx : l[x]'(by omega) = rep Z (Z.length + 1 - k) x := by simp [hl]
    have gy : l[y]'(by omega) = rep Z (Z.length + 1 - k) y := by simp [hl]
    rw [gx, gy, Option.some_inj]
    constructor
    · intro h
      have mx : rep Z (Z.length + 1 - k) x ∈ npUnique l := (mem_npUnique l _).2 (gx ▸ List.getElem_mem _)
      have my : rep Z (Z.length + 1 - k) y ∈ npUnique l := (mem_npUnique l _).2 (gy ▸ List.getElem_mem _)
      exact (List.idxOf_inj mx).1 h
    · intro h; rw [h]

/-- Clusterings are nested: points together in a clustering with more clusters are together in one with fewer. -/
theorem C38_nested (Z : List (Merge K)) (hZ : Valid Z) (k k' : Nat) (h1 : 1 ≤ k') (h2 : k' ≤ k) (h3 : k ≤ Z.length + 1)
    (l l' : List Nat) (hl : flatFromNum Z k = some l) (hl' : flatFromNum Z k' = some l') (x y : Nat)
    (hx : x < Z.length + 1) (hy : y < Z.length + 1) (h : l[x]? = l[y]?) : l'[x]? = l'[y]? := by
  obtain ⟨a, ha, _, _, ha'⟩ := C38_num_clusters Z hZ k (by omega) h3
  obtain ⟨b, hb, _, _, hb'⟩ := C38_num_clusters Z hZ k' h1 (by omega)
  rw [hl] at ha; cases ha
  rw [hl'] at hb; cases hb
  exact (hb' x y hx hy).2 (joined_mono (by omega) ((ha' x y hx hy).1 h))

/-- Asking for at least as many clusters as points gives every point its own label. -/
theorem C38_many (Z : List (Merge K)) (hZ : Valid Z) (k : Int) (h : (Z.length : Int) + 1 ≤ k) :
    ∃ labels, flatFromNum Z k = some labels ∧ labels.length = Z.length + 1 ∧ labels.Nodup := by
  have e : flatFromNum Z k = flatFromNum Z ((Z.length + 1 : Nat) : Int) := by
    unfold flatFromNum
    simp only
    rw [min_eq_left (by push_cast; omega), min_eq_left le_rfl]
  obtain ⟨a, ha, hal, _, haj⟩ := C38_num_clusters Z hZ (Z.length + 1) (by omega) le_rfl
  refine ⟨a, by rw [e, ha], hal, ?_⟩
  rw [List.nodup_iff_getElem?_ne_getElem?]
  intro i j hij hj heq
  have := (haj i j (by omega) (by omega)).1 heq
  rw [Nat.sub_self, joined_iff hZ (by omega)] at this
  simp only [rep] at this
  omega

/-- Asking for no cluster raises. -/
theorem C38_zero_raises (Z : List (Merge K)) (k : Int) (h : k ≤ 0) : flatFromNum Z k = none := by
  unfold flatFromNum
  simp only
  rw [if_pos]
  omega

/-- Threshold criterion: when the scores of the merges are in order (non-increasing for llr/prob, non-decreasing for
distances, as for the average, single and complete linkage), two points share a label iff they are joined by merges at
least as good as the threshold. -/
theorem C38_threshold [LinearOrder K] (Z : List (Merge K)) (hZ : Valid Z) (sim : Bool) (thr : K)
    (hs : if sim then (Z.map Merge.h).Pairwise (· ≥ ·) else (Z.map Merge.h).Pairwise (· ≤ ·)) :
    ∃ labels, flatFromThr Z sim thr = some labels ∧ labels.length = Z.length + 1 ∧
      ∀ x y, x < Z.length + 1 → y < Z.length + 1 → (labels[x]? = labels[y]? ↔
        Relation.EqvGen (fun u v => ∃ (i : Nat) (hi : i < Z.length), (if sim then thr ≤ Z[i].h else Z[i].h ≤ thr) ∧
          v = Z.length + 1 + i ∧ (u = Z[i].a ∨ u = Z[i].b)) x y) := by
  set P : Merge K → Bool := fun m => if sim then decide (m.h ≥ thr) else decide (m.h ≤ thr) with hP
  set n := Z.countP P with hn
  have hn' : (if sim then Z.countP (fun m => decide (m.h ≥ thr)) else Z.countP (fun m => decide (m.h ≤ thr))) = n := by
    rw [hn, hP]; cases sim <;> rfl
  have hle : n ≤ Z.length := List.countP_le_length
  -- the merges above the threshold are the first ones
  have hpre : ∀ i (hi : i < Z.length), i < n ↔ P Z[i] = true := by
    have key : ∀ (l : List (Merge K)), l.Pairwise (fun m m' => P m' = true → P m = true) →
        ∀ i (hi : i < l.length), i < l.countP P ↔ P l[i] = true := by
      intro l
      induction l with
      | nil => intro _ i hi; simp at hi
      | cons m l ih =>
        intro hp i hi
        obtain ⟨p1, p2⟩ := List.pairwise_cons.1 hp
        cases i with
        | zero =>
          simp only [List.getElem_cons_zero]
          by_cases hm : P m = true
          · rw [List.countP_cons_of_pos hm]; simp [hm]
          · have : l.countP P = 0 := List.countP_eq_zero.2 (fun b hb hb' => hm (p1 b hb hb'))
            rw [List.countP_cons_of_neg hm, this]; simp [hm]
        | succ i =>
          simp only [List.getElem_cons_succ]
          have hi' : i < l.length := by simpa using hi
          by_cases hm : P m = true
          · rw [List.countP_cons_of_pos hm, ← ih p2 i hi']; omega
          · have h0 : ∀ b ∈ l, ¬ P b = true := fun b hb hb' => hm (p1 b hb hb')
            have : l.countP P = 0 := List.countP_eq_zero.2 h0
            rw [List.countP_cons_of_neg hm, this]
            simp only [Nat.not_lt_zero, false_iff]
            exact h0 _ (List.getElem_mem hi')
    apply key
    cases sim
    · simp only [Bool.false_eq_true, if_false] at hs
      rw [List.pairwise_map] at hs
      apply hs.imp
      intro a b hab hb
      simp only [hP, Bool.false_eq_true, if_false, decide_eq_true_eq] at *
      exact hab.trans hb
    · simp only [if_true] at hs
      rw [List.pairwise_map] at hs
      apply hs.imp
      intro a b hab hb
      simp only [hP, if_true, decide_eq_true_eq] at *
      exact le_trans hb hab
  obtain ⟨labels, h1, h2, _, h4⟩ := C38_num_clusters Z hZ (Z.length + 1 - n) (by omega) (by omega)
  refine ⟨labels, ?_, h2, ?_⟩
  · unfold flatFromThr
    simp only [hn']
    rw [← h1]
    congr 1
    omega
  · intro x y hx hy
    rw [h4 x y hx hy, show Z.length + 1 - (Z.length + 1 - n) = n by omega]
    unfold Joined
    have hrel : (Link Z n) = (fun u v => ∃ (i : Nat) (hi : i < Z.length), (if sim then thr ≤ Z[i].h else Z[i].h ≤ thr) ∧
          v = Z.length + 1 + i ∧ (u = Z[i].a ∨ u = Z[i].b)) := by
      funext u v
      apply propext
      constructor
      · rintro ⟨i, hi, hin, rest⟩
        refine ⟨i, hi, ?_, rest⟩
        have := (hpre i hi).1 hin
        cases sim <;> simpa [hP] using this
      · rintro ⟨i, hi, hin, rest⟩
        refine ⟨i, hi, (hpre i hi).2 ?_, rest⟩
        cases sim <;> simpa [hP] using hin
    rw [hrel]

/-- Without ordered scores (possible with centroid or median linkage) the threshold criterion uses other merges than
those above the threshold: here the only merge above 5 is the second one (of point 2), but points 0 and 1 are joined. -/
theorem C38_threshold_inversion : flatFromThr [⟨0, 1, (1 : Int)⟩, ⟨2, 4, 9⟩, ⟨3, 5, 0⟩] true 5 = some [2, 2, 0, 1] := by decide

/-- non-trivial instance: 4 points, 2 clusters. -/
example : Valid [⟨0, 2, (9 : Int)⟩, ⟨1, 3, 7⟩, ⟨4, 5, 1⟩] ∧ flatFromNum [⟨0, 2, (9 : Int)⟩, ⟨1, 3, 7⟩, ⟨4, 5, 1⟩] 2 = some [0, 1, 0, 1] := by
  refine ⟨⟨?_, ?_, ?_⟩, by decide⟩
  · decide
  · decide
  · intro i j hi hj hij
    simp only [List.length_cons, List.length_nil] at hi hj
    have : (i = 0 ∧ j = 1) ∨ (i = 0 ∧ j = 2) ∨ (i = 1 ∧ j = 2) := by omega
    rcases this with ⟨rfl, rfl⟩ | ⟨rfl, rfl⟩ | ⟨rfl, rfl⟩ <;> simp

end Hyp.Clustering
