import Verif.Model.Pca
import Verif.Props.PcaTree
import Mathlib.Tactic.Linarith
import Mathlib.Tactic.FieldSimp

/-!
# C22, C63: the merged PCA is the PCA of all data
-/

namespace S2G
namespace Pca
variable {d : Nat}

/-! ### Specification -/

/-- The Gram matrix `AᵀA` of the matrix with these rows. -/
def gram (A : List (Row d)) : Matrix (Fin d) (Fin d) ℝ := fun a b => (A.map (fun x => x a * x b)).sum

/-- The mean of a list of rows. -/
noncomputable def mean (D : List (Row d)) : Row d := fun a => (D.map (fun x => x a)).sum / D.length

/-- The summary describes the data: number of rows, mean, and the Gram matrix of the centred data. -/
structure Summarises (D : List (Row d)) (S : Summary d) : Prop where
  n : S.n = D.length
  means : S.means = mean D
  r : gram S.r = gram (D.map (fun x => x - mean D))

/-! ### Algebra -/

theorem gram_append (A B : List (Row d)) : gram (A ++ B) = gram A + gram B := by
  funext a b
  simp [gram]

theorem sum_shift (D : List (Row d)) (v : Row d) (a b : Fin d) (hD : D ≠ []) :
    (D.map (fun x => (x a - v a) * (x b - v b))).sum =
      (D.map (fun x => (x a - mean D a) * (x b - mean D b))).sum + D.length * ((mean D a - v a) * (mean D b - v b)) := by
  have hlen : (D.length : ℝ) ≠ 0 := by
    have := List.length_pos_iff.2 hD
    exact_mod_cast this.ne'
  have expand : ∀ (v w : ℝ), (D.map (fun x => (x a - v) * (x b - w))).sum =
      (D.map (fun x => x a * x b)).sum - w * (D.map (fun x => x a)).sum - v * (D.map (fun x => x b)).sum +
        D.length * (v * w) := by
    intro v w
    clear hlen hD
    induction D with
    | nil => simp
    | cons x D ih =>
      simp only [List.map_cons, List.sum_cons, ih, List.length_cons]
      push_cast
      ring
  rw [expand, expand]
  unfold mean
  field_simp
  ring

/-- The summary of the local data. -/
theorem summarises_local {qr : List (Row d) → List (Row d)} (hqr : ∀ A, gram (qr A) = gram A) (D : List (Row d)) :
    Summarises D (localStep qr D) :=
  ⟨rfl, rfl, hqr _⟩

theorem sum_parts {parts : List (List (Row d))} {Ss : List (Summary d)} (h : List.Forall₂ Summarises parts Ss)
    (hne : ∀ D ∈ parts, D ≠ []) (a : Fin d) :
    (Ss.map (fun S => S.n * S.means a)).sum = (parts.flatten.map (fun x => x a)).sum ∧
    (Ss.map (fun S => S.n)).sum = parts.flatten.length := by
  induction h with
  | nil => simp
  | @cons D S parts Ss h hs ih =>
    obtain ⟨i1, i2⟩ := ih (fun D hD => hne D (by simp [hD]))
    have hD := hne D (by simp)
    have hlen : (D.length : ℝ) ≠ 0 := by
      have := List.length_pos_iff.2 hD
      exact_mod_cast this.ne'
    rw [List.map_cons, List.sum_cons, List.map_cons, List.sum_cons, i1, i2, List.flatten_cons, List.map_append,
      List.sum_append, List.length_append, h.n, h.means]
    constructor
    · congr 1
      unfold mean
      field_simp
    · push_cast
      rfl

theorem gram_parts {parts : List (List (Row d))} {Ss : List (Summary d)} (h : List.Forall₂ Summarises parts Ss)
    (hne : ∀ D ∈ parts, D ≠ []) (v : Row d) (a b : Fin d) :
    (parts.flatten.map (fun x => (x a - v a) * (x b - v b))).sum =
      (Ss.map (fun S => gram S.r a b)).sum + (Ss.map (fun S => S.n * ((S.means a - v a) * (S.means b - v b)))).sum := by
  induction h with
  | nil => simp
  | @cons D S parts Ss h hs ih =>
    have i := ih (fun D hD => hne D (by simp [hD]))
    rw [List.flatten_cons, List.map_append, List.sum_append, i, sum_shift D v a b (hne D (by simp))]
    simp only [List.map_cons, List.sum_cons]
    rw [h.r, h.n, h.means]
    have : gram (D.map (fun x => x - mean D)) a b = (D.map (fun x => (x a - mean D a) * (x b - mean D b))).sum := by
      unfold gram
      rw [List.map_map]
      rfl
    rw [this]
    ring

/-- C22: merging. If every participant has a summary of its (non-empty) data, the factor is a combination of all factors (its
Gram matrix is their sum), and all means have arrived (in any order), then `finalize` gives a summary of all data. -/
theorem C22_merge {qr : List (Row d) → List (Row d)} (hqr : ∀ A, gram (qr A) = gram A) {parts : List (List (Row d))}
    {Ss : List (Summary d)} (h : List.Forall₂ Summarises parts Ss) (hne : ∀ D ∈ parts, D ≠ [])
    {ms : List (Row d × ℝ)} (hms : ms.Perm (Ss.map (fun S => (S.means, S.n)))) {r : List (Row d)}
    (hr : gram r = (Ss.map (fun S => gram S.r)).sum) :
    Summarises parts.flatten (finalize qr ms r) := by
  have hn : (ms.map Prod.snd).sum = parts.flatten.length := by
    rw [(hms.map _).sum_eq, List.map_map]
    by_cases hd : d = 0
    · clear hms hr
      induction h with
      | nil => simp
      | @cons D S parts Ss h hs ih =>
        rw [List.map_cons, List.sum_cons, ih (fun D hD => hne D (by simp [hD])), List.flatten_cons, List.length_append]
        show S.n + _ = _
        rw [h.n]
        push_cast
        rfl
    · exact (sum_parts h hne ⟨0, by omega⟩).2
  have hmean : globalMeans ms = mean parts.flatten := by
    funext a
    unfold globalMeans mean
    rw [hn, (hms.map _).sum_eq, List.map_map]
    congr 1
    exact (sum_parts h hne a).1
  refine ⟨hn, hmean, ?_⟩
  unfold finalize
  rw [hqr, gram_append, hr, hmean]
  funext a b
  have hs : (Ss.map (fun S => gram S.r)).sum a b = (Ss.map (fun S => gram S.r a b)).sum := by
    clear hms hr h hn hmean
    induction Ss with
    | nil => rfl
    | cons S Ss ih => rw [List.map_cons, List.sum_cons, List.map_cons, List.sum_cons, ← ih]; rfl
  have hg : gram (ms.map (fun x => fun a => Real.sqrt x.2 * (x.1 a - mean parts.flatten a))) a b =
      (Ss.map (fun S => S.n * ((S.means a - mean parts.flatten a) * (S.means b - mean parts.flatten b)))).sum := by
    unfold gram
    rw [List.map_map, (hms.map _).sum_eq, List.map_map]
    congr 1
    apply List.map_congr_left
    intro S hS
    have hpos : 0 ≤ S.n := by
      obtain ⟨i, hi, rfl⟩ := List.getElem_of_mem hS
      have hl := h.length_eq
      have := (List.forall₂_iff_get.1 h).2 i (by omega) hi
      rw [List.get_eq_getElem] at this
      have hn' := this.n
      rw [List.get_eq_getElem] at hn'
      rw [hn']
      positivity
    simp only [Function.comp_apply]
    have := Real.mul_self_sqrt hpos
    calc Real.sqrt S.n * (S.means a - mean parts.flatten a) * (Real.sqrt S.n * (S.means b - mean parts.flatten b))
        = (Real.sqrt S.n * Real.sqrt S.n) * ((S.means a - mean parts.flatten a) * (S.means b - mean parts.flatten b)) := by
          ring
      _ = _ := by rw [this]
  show gram _ a b + (Ss.map (fun S => gram S.r)).sum a b = _
  rw [hg, hs]
  have := gram_parts h hne (mean parts.flatten) a b
  unfold gram at this ⊢
  rw [List.map_map]
  have e : ((fun x : Row d => x a * x b) ∘ fun x => x - mean parts.flatten) =
      fun x => (x a - mean parts.flatten a) * (x b - mean parts.flatten b) := rfl
  rw [e, this]
  ring

/-- C22: the variance of the data in any direction can be read off the factor; so its singular values and right singular
vectors are the ones of the centred data. -/
theorem C22_variance {D : List (Row d)} {S : Summary d} (h : Summarises D S) (v : Row d) :
    (S.r.map (fun x => (∑ a, x a * v a) ^ 2)).sum = (D.map (fun x => (∑ a, (x a - mean D a) * v a) ^ 2)).sum := by
  have key : ∀ A : List (Row d), (A.map (fun x => (∑ a, x a * v a) ^ 2)).sum = ∑ a, ∑ b, gram A a b * v a * v b := by
    intro A
    induction A with
    | nil => simp [gram]
    | cons x A ih =>
      rw [List.map_cons, List.sum_cons, ih]
      have : ∀ a b, gram (x :: A) a b = x a * x b + gram A a b := fun a b => by simp [gram]
      simp only [this, add_mul, Finset.sum_add_distrib]
      congr 1
      rw [sq, Finset.sum_mul_sum]
      apply Finset.sum_congr rfl
      intro a _
      apply Finset.sum_congr rfl
      intro b _
      ring
  rw [key, h.r, ← key, List.map_map]
  rfl

/-- `C22_merge` for numbered participants. -/
theorem merge_range {qr : List (Row d) → List (Row d)} (hqr : ∀ A, gram (qr A) = gram A) {k : Nat}
    {data : Nat → List (Row d)} (hne : ∀ i < k, data i ≠ []) {sums : Nat → Summary d}
    (hsums : ∀ i < k, Summarises (data i) (sums i)) {m : List (Row d)} (hg : gram m = ∑ j ∈ Finset.range k, gram ((sums j).r))
    {ms : List (Row d × ℝ)} (hms : ms.Perm ((List.range k).map (fun i => ((sums i).means, (sums i).n)))) :
    Summarises ((List.range k).flatMap data) (finalize qr ms m) := by
  rw [List.flatMap_def]
  refine C22_merge hqr (Ss := (List.range k).map sums) ?_ ?_ ?_ ?_
  · rw [List.forall₂_map_left_iff, List.forall₂_map_right_iff, List.forall₂_same]
    exact fun i hi => hsums i (by simpa using hi)
  · intro D hD
    rw [List.mem_map] at hD
    obtain ⟨i, hi, rfl⟩ := hD
    exact hne i (by simpa using hi)
  · rw [List.map_map]
    exact hms
  · rw [hg, List.map_map]
    have : ∀ n : Nat, ∑ j ∈ Finset.range n, gram ((sums j).r) = ((List.range n).map ((fun S => gram S.r) ∘ sums)).sum := by
      intro n
      induction n with
      | zero => rfl
      | succ n ih => rw [Finset.sum_range_succ, ih, List.range_succ, List.map_append, List.sum_append]; simp
    exact this k

/-- C22, the whole reduction, in every schedule: the participants (threads of a node, or nodes) hold summaries of their data,
the factors are combined along the tree, and all means have arrived. Then the result is a summary of all data. As the result of
the threads is the starting point of the nodes, this covers both levels. -/
theorem C22_tree {qr : List (Row d) → List (Row d)} (hqr : ∀ A, gram (qr A) = gram A) {k : Nat}
    {data : Nat → List (Row d)} (hne : ∀ i < k, data i ≠ []) {sums : Nat → Summary d}
    (hsums : ∀ i < k, Summarises (data i) (sums i)) {s : TreeNet (List (Row d))}
    (hr : TreeNet.Reachable k k (fun i => (sums i).r) (combine qr) s) {m : List (Row d)} (hm : m ∈ s.fin)
    {ms : List (Row d × ℝ)} (hms : ms.Perm ((List.range k).map (fun i => ((sums i).means, (sums i).n)))) :
    Summarises ((List.range k).flatMap data) (finalize qr ms m) := by
  exact merge_range hqr hne hsums ((TreeNet.C20_combined_once (g := gram) (le_refl k)
    (fun a b => by unfold combine; rw [hqr, gram_append]) hr).2 m hm) hms

/-! ### Signs -/

theorem normalizeRow_sign (v : Row (d + 1)) : (normalizeRow v = v ∨ normalizeRow v = -v) ∧ 0 ≤ normalizeRow v 0 := by
  unfold normalizeRow
  split
  · next h => exact ⟨Or.inl rfl, h⟩
  · next h =>
    constructor
    · right
      funext a
      simp
    · simp only
      linarith

theorem normalizeRow_unique_iff (v : Row (d + 1)) : normalizeRow (-v) = normalizeRow v ↔ v 0 ≠ 0 ∨ v = 0 := by
  unfold normalizeRow
  by_cases h0 : v 0 = 0
  · simp only [Pi.neg_apply, h0, neg_zero, le_refl, if_true, ne_eq, not_true_eq_false, false_or]
    constructor
    · intro h
      funext a
      have := congrFun h a
      simp only [Pi.neg_apply] at this
      simp only [Pi.zero_apply]
      linarith
    · rintro rfl
      simp
  · simp only [ne_eq, h0, not_false_eq_true, true_or, iff_true, Pi.neg_apply]
    by_cases hp : 0 ≤ v 0
    · have : 0 < v 0 := lt_of_le_of_ne hp (Ne.symm h0)
      rw [if_pos hp, if_neg (by linarith)]
      funext a
      simp
    · rw [if_neg hp, if_pos (by linarith)]
      funext a
      simp

/-- C63: every component keeps its direction up to the sign, and its first entry is not negative. -/
theorem C63_sign (vs : List (Row (d + 1))) : List.Forall₂ (fun v w => (w = v ∨ w = -v) ∧ 0 ≤ w 0) vs (normalize vs) := by
  unfold normalize
  induction vs with
  | nil => exact .nil
  | cons v vs ih => exact .cons (normalizeRow_sign v) ih

/-- C63: the signs chosen by the SVD do not matter exactly if no first entry is zero (or the vector is zero). -/
theorem C63_unique_iff (vs : List (Row (d + 1))) :
    (∀ ws, List.Forall₂ (fun v w => w = v ∨ w = -v) vs ws → normalize ws = normalize vs) ↔ ∀ v ∈ vs, v 0 ≠ 0 ∨ v = 0 := by
  constructor
  · intro h
    induction vs with
    | nil => simp
    | cons v vs ih =>
      have hrefl : ∀ us : List (Row (d + 1)), List.Forall₂ (fun v w => w = v ∨ w = -v) us us := by
        intro us
        induction us with
        | nil => exact .nil
        | cons u us ih => exact .cons (Or.inl rfl) ih
      intro u hu
      rcases List.mem_cons.1 hu with rfl | hu
      · have := h (-u :: vs) (.cons (Or.inr rfl) (hrefl vs))
        simp only [normalize, List.map_cons, List.cons.injEq, and_true] at this
        exact (normalizeRow_unique_iff u).1 this
      · refine ih (fun ws hws => ?_) u hu
        have := h (v :: ws) (.cons (Or.inl rfl) hws)
        simp only [normalize, List.map_cons, List.cons.injEq, true_and] at this
        exact this
  · intro h ws hws
    induction hws with
    | nil => rfl
    | @cons v w vs ws hvw _ ih =>
      have h1 := ih (fun u hu => h u (List.mem_cons_of_mem _ hu))
      simp only [normalize, List.map_cons, List.cons.injEq] at h1 ⊢
      refine ⟨?_, h1⟩
      rcases hvw with rfl | rfl
      · rfl
      · exact (normalizeRow_unique_iff v).2 (h v (by simp))

/-- C63 (what fails): a component with first entry zero keeps the sign of the SVD. -/
theorem C63_counterexample : normalize [-(![0, 1] : Row 2)] ≠ normalize [(![0, 1] : Row 2)] := by
  intro h
  simp only [normalize, List.map_cons, List.map_nil, List.cons.injEq, and_true] at h
  have := (normalizeRow_unique_iff _).1 h
  simp at this

/-- The projection of a row changes its sign with the component. -/
theorem reduceRow_neg (v means x : Row d) : reduceRow [-v] means x = (reduceRow [v] means x).map (fun y => -y) := by
  unfold reduceRow
  simp only [List.map_cons, List.map_nil, Pi.neg_apply, mul_neg, List.cons.injEq, and_true]
  induction List.finRange d with
  | nil => simp
  | cons a l ih => rw [List.map_cons, List.sum_cons, List.map_cons, List.sum_cons, ih]; ring

-- two participants with two and one rows; `qr` may be anything which keeps the Gram matrix
example : Summarises [![1, 2], ![3, 4], ![5, 0]]
    (finalize id [((localStep id [![1, 2], ![3, 4]]).means, (localStep id [![1, 2], ![3, 4]] : Summary 2).n),
      ((localStep id [![5, 0]]).means, (localStep id [![5, 0]] : Summary 2).n)]
      (combine id (localStep id [![1, 2], ![3, 4]]).r (localStep id [![5, 0]]).r)) :=
  C22_merge (parts := [[![1, 2], ![3, 4]], [![5, 0]]]) (qr := id) (fun _ => rfl)
    (.cons (summarises_local (fun _ => rfl) _) (.cons (summarises_local (fun _ => rfl) _) .nil)) (by simp) (List.Perm.refl _)
    (by simp [combine, gram_append]; rfl)

end Pca
end S2G
