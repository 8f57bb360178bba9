import Verif.Props.EdgesLocal
import Verif.Props.Segmentation
import Verif.Props.NodeEstimation

/-!
# C42: the questions about successor nodes
-/

namespace S2G

/-- Point and segment of the last node of a step. -/
def lastKey (t : Trans) : Nat × Nat := (t.src.id, t.dst.seg)

/-- Points and segments of the nodes of a step in direction of travel. -/
def stepKeys (rate : Nat) (t : Trans) : List (Nat × Nat) := (t.intersectionSegments rate).map (fun s => (t.src.id, s))

/-- Specification: consecutive nodes, written as questions "which node follows this one?". -/
def niqPairs : List (Nat × Nat) → List NIQ
  | a :: b :: l => ⟨a.1, a.2, b.1, b.2⟩ :: niqPairs (b :: l)
  | _ => []

/-- Specification: the successor relations established by step `t` following step `prev`. -/
def successions (rate : Nat) (prev : Option Trans) (t : Trans) : List NIQ :=
  niqPairs ((prev.map lastKey).toList ++ stepKeys rate t)

/-- Predecessor and successor are owned by different nodes. -/
def Cross (p : Parameters) (q : NIQ) : Prop := owner p q.prevSeg ≠ owner p q.seg

instance (p : Parameters) (q : NIQ) : Decidable (Cross p q) := inferInstanceAs (Decidable (_ ≠ _))

/-! ### Arithmetic of owners along the circle -/

theorem owner_mono (p : Parameters) {s t : Nat} (h : s ≤ t) : owner p s ≤ owner p t := by
  unfold owner
  have : s / (p.rate / p.nClusterNodes) ≤ t / (p.rate / p.nClusterNodes) := Nat.div_le_div_right h
  omega

theorem owner_zero {p : Parameters} : owner p 0 = 0 := by
  unfold owner
  simp

theorem owner_block_start {p : Parameters} (hp : p.WellFormed) {i : Nat} (hi : i < p.nClusterNodes) :
    owner p (i * (p.rate / p.nClusterNodes)) = i := by
  rw [Edges.owner_iff hp hi]
  refine ⟨le_refl _, fun _ => ?_⟩
  have := Parameters.spn_pos hp
  rw [Nat.add_mul]; omega

theorem block_start_le {p : Parameters} (hp : p.WellFormed) {i : Nat} (hi : i < p.nClusterNodes) :
    i * (p.rate / p.nClusterNodes) < p.rate := by
  rw [Nat.mul_comm]
  exact NodeEst.start_lt hp hi

theorem owner_before_block {p : Parameters} (hp : p.WellFormed) {i : Nat} (hi : i + 1 < p.nClusterNodes) :
    owner p ((i + 1) * (p.rate / p.nClusterNodes) - 1) = i := by
  rw [Edges.owner_iff hp (by omega)]
  have := Parameters.spn_pos hp
  rw [Nat.add_mul]
  generalize i * (p.rate / p.nClusterNodes) = x
  constructor
  · omega
  · intro _; omega

theorem owner_last {p : Parameters} (hp : p.WellFormed) : owner p (p.rate - 1) = p.nClusterNodes - 1 := by
  have h1 := hp.1
  rw [Edges.owner_iff hp (by omega)]
  have := block_start_le hp (i := p.nClusterNodes - 1) (by omega)
  exact ⟨by omega, by omega⟩

/-- Going one segment forward either stays at the owner or enters the first segment of the next block. -/
theorem owner_succ {p : Parameters} (hp : p.WellFormed) (s : Nat) :
    owner p (s + 1) = owner p s ∨ (owner p (s + 1) = owner p s + 1 ∧ owner p s + 1 < p.nClusterNodes ∧
      s + 1 = (owner p s + 1) * (p.rate / p.nClusterNodes)) := by
  have hlt := owner_lt hp s
  obtain ⟨h1, h2⟩ := (Edges.owner_iff hp hlt s).1 rfl
  generalize ho : owner p s = o at *
  by_cases hl : o + 1 < p.nClusterNodes
  · have h2 := h2 hl
    by_cases he : s + 1 = (o + 1) * (p.rate / p.nClusterNodes)
    · right
      refine ⟨?_, hl, he⟩
      rw [he]
      exact owner_block_start hp hl
    · left
      rw [Edges.owner_iff hp hlt]
      exact ⟨by omega, fun _ => by omega⟩
  · left
    rw [Edges.owner_iff hp hlt]
    exact ⟨by omega, fun h => absurd h hl⟩

theorem segBefore_succ {p : Parameters} {s : Nat} (h : s < p.rate) : segBefore p (s + 1) = s := by
  unfold segBefore
  have : ((s + 1 : Nat) : Int) - 1 = (s : Int) := by push_cast; ring
  rw [this]
  have : Int.emod (s : Int) p.rate = s := by
    change (s : Int) % (p.rate : Int) = s
    exact Int.emod_eq_of_lt (by omega) (by omega)
  rw [this]; simp

theorem segBefore_zero {p : Parameters} (h : 0 < p.rate) : segBefore p 0 = p.rate - 1 := by
  unfold segBefore
  have : Int.emod (((0 : Nat) : Int) - 1) p.rate = (p.rate : Int) - 1 := by
    change (((0 : Nat) : Int) - 1) % (p.rate : Int) = _
    have h2 : (((0 : Nat) : Int) - 1) = ((p.rate : Int) - 1) + p.rate * (-1) := by push_cast; ring
    rw [h2, Int.add_mul_emod_self_left]
    exact Int.emod_eq_of_lt (by omega) (by omega)
  rw [this]; omega

theorem clusterNodeDiff_eq {p : Parameters} {a b : Nat} (ha : a < p.nClusterNodes) (hb : b < p.nClusterNodes) :
    clusterNodeDiff p a b = if a ≤ b then b - a else p.nClusterNodes + b - a := by
  unfold clusterNodeDiff
  change (((b : Int) - a) % (p.nClusterNodes : Int)).toNat = _
  split
  · rw [Int.emod_eq_of_lt (by omega) (by omega)]; omega
  · have h2 : (b : Int) - a = ((p.nClusterNodes : Int) + b - a) + p.nClusterNodes * (-1) := by ring
    rw [h2, Int.add_mul_emod_self_left, Int.emod_eq_of_lt (by omega) (by omega)]
    omega

/-- Where the way from `f` to `t` changes the owner, a block starts that is asked about. -/
theorem cross_wanted {p : Parameters} (hp : p.WellFormed) (t : Trans) (hf : t.src.seg < p.rate) {k : Nat}
    (hk : Trans.ForwardBy p.rate t.src.seg t.dst.seg k) {j : Nat} (hj : j < k)
    (hc : owner p ((t.src.seg + j) % p.rate) ≠ owner p ((t.src.seg + (j + 1)) % p.rate)) :
    ∃ i < clusterNodeDiff p (owner p t.src.seg) (owner p t.dst.seg), wantedSeg p t i = (t.src.seg + (j + 1)) % p.rate := by
  obtain ⟨k1, k2, k3⟩ := hk
  have hn1 : 2 ≤ p.nClusterNodes := by
    by_contra hn
    have := owner_lt hp ((t.src.seg + j) % p.rate)
    have := owner_lt hp ((t.src.seg + (j + 1)) % p.rate)
    omega
  have hd : t.dst.seg < p.rate := by rw [k3]; exact Nat.mod_lt _ (by omega)
  have hA := owner_lt hp t.src.seg
  have hB := owner_lt hp t.dst.seg
  rw [clusterNodeDiff_eq hA hB]
  rw [Trans.mod_cases hf (by omega)] at k3
  rw [Trans.mod_cases hf (by omega), Trans.mod_cases hf (by omega)] at hc
  rw [Trans.mod_cases hf (by omega)]
  unfold wantedSeg
  have modlt : ∀ c, c < p.nClusterNodes → c % p.nClusterNodes = c := fun c h => Nat.mod_eq_of_lt h
  by_cases hw : t.src.seg + k < p.rate
  · rw [if_pos hw] at k3
    rw [if_pos (by omega), if_pos (by omega)] at hc
    rw [if_pos (show t.src.seg + (j + 1) < p.rate by omega)]
    have hm := owner_mono p (show t.src.seg ≤ t.src.seg + j by omega)
    have hm2 := owner_mono p (show t.src.seg + (j + 1) ≤ t.dst.seg by omega)
    rcases owner_succ hp (t.src.seg + j) with e | ⟨e1, e2, e3⟩
    · exact absurd e.symm hc
    · rw [Nat.add_assoc] at e1 e3
      rw [if_pos (by omega)]
      refine ⟨owner p (t.src.seg + j) - owner p t.src.seg, by omega, ?_⟩
      rw [show owner p t.src.seg + (owner p (t.src.seg + j) - owner p t.src.seg + 1) = owner p (t.src.seg + j) + 1 by
        omega, modlt _ e2, ← e3]
  · rw [if_neg hw] at k3
    have hBA := owner_mono p (show t.dst.seg ≤ t.src.seg by omega)
    have hne : owner p t.src.seg ≠ owner p t.dst.seg := fun e =>
      Edges.not_both_sides hp hn1 hf (t := t.dst.seg) (by omega) hA e.symm (le_refl _) rfl (le_refl _)
    rw [if_neg (by omega)]
    by_cases c1 : t.src.seg + (j + 1) < p.rate
    · rw [if_pos (by omega), if_pos c1] at hc
      rw [if_pos c1]
      have hm := owner_mono p (show t.src.seg ≤ t.src.seg + j by omega)
      rcases owner_succ hp (t.src.seg + j) with e | ⟨e1, e2, e3⟩
      · exact absurd e.symm hc
      · rw [Nat.add_assoc] at e1 e3
        refine ⟨owner p (t.src.seg + j) - owner p t.src.seg, by omega, ?_⟩
        rw [show owner p t.src.seg + (owner p (t.src.seg + j) - owner p t.src.seg + 1) = owner p (t.src.seg + j) + 1 by
          omega, modlt _ e2, ← e3]
    · rw [if_neg c1] at hc ⊢
      by_cases c2 : t.src.seg + j < p.rate
      · refine ⟨p.nClusterNodes - 1 - owner p t.src.seg, by omega, ?_⟩
        rw [show owner p t.src.seg + (p.nClusterNodes - 1 - owner p t.src.seg + 1) = p.nClusterNodes by omega,
          Nat.mod_self]
        omega
      · rw [if_neg c2] at hc
        obtain ⟨s, hs⟩ : ∃ s, t.src.seg + j - p.rate = s := ⟨_, rfl⟩
        have hs1 : t.src.seg + (j + 1) - p.rate = s + 1 := by omega
        rw [hs, hs1] at hc
        rw [hs1]
        have hm2 := owner_mono p (show s + 1 ≤ t.dst.seg by omega)
        rcases owner_succ hp s with e | ⟨e1, e2, e3⟩
        · exact absurd e.symm hc
        · refine ⟨p.nClusterNodes - owner p t.src.seg + owner p s, by omega, ?_⟩
          rw [show owner p t.src.seg + (p.nClusterNodes - owner p t.src.seg + owner p s + 1) =
            owner p s + 1 + p.nClusterNodes by omega, Nat.add_mod_right, modlt _ e2, ← e3]

/-- Every block asked about starts on the way from `f` to `t`. -/
theorem wanted_on_path {p : Parameters} (hp : p.WellFormed) (t : Trans) (hf : t.src.seg < p.rate) {k : Nat}
    (hk : Trans.ForwardBy p.rate t.src.seg t.dst.seg k) {i : Nat}
    (hi : i < clusterNodeDiff p (owner p t.src.seg) (owner p t.dst.seg)) :
    ∃ j < k, (t.src.seg + (j + 1)) % p.rate = wantedSeg p t i ∧
      (t.src.seg + j) % p.rate = segBefore p (wantedSeg p t i) ∧ (j = 0 → i = 0) := by
  obtain ⟨k1, k2, k3⟩ := hk
  have hd : t.dst.seg < p.rate := by rw [k3]; exact Nat.mod_lt _ (by omega)
  have hA := owner_lt hp t.src.seg
  have hB := owner_lt hp t.dst.seg
  have hspn := Parameters.spn_pos hp
  rw [clusterNodeDiff_eq hA hB] at hi
  rw [Trans.mod_cases hf (by omega)] at k3
  unfold wantedSeg
  have modlt : ∀ c, c < p.nClusterNodes → c % p.nClusterNodes = c := fun c h => Nat.mod_eq_of_lt h
  -- a block start above the segment of the start, below the end of the circle
  have above : ∀ c, c = owner p t.src.seg + (i + 1) → c < p.nClusterNodes →
      t.src.seg < c * (p.rate / p.nClusterNodes) ∧ c * (p.rate / p.nClusterNodes) < p.rate ∧
      (t.src.seg + 1 = c * (p.rate / p.nClusterNodes) → i = 0) := by
    intro c hc hcn
    have h1 := owner_block_start hp hcn
    refine ⟨?_, block_start_le hp hcn, ?_⟩
    · by_contra hh
      have := owner_mono p (show c * (p.rate / p.nClusterNodes) ≤ t.src.seg by omega)
      omega
    · intro e
      have h2 := owner_before_block hp (i := c - 1) (by omega)
      rw [show c - 1 + 1 = c by omega, ← e, Nat.add_sub_cancel] at h2
      omega
  -- a block start not above the owner of the end
  have below : ∀ c, 1 ≤ c → c ≤ owner p t.dst.seg →
      c * (p.rate / p.nClusterNodes) ≤ t.dst.seg ∧ 1 ≤ c * (p.rate / p.nClusterNodes) := by
    intro c hc1 hc
    refine ⟨?_, Nat.mul_pos hc1 (by omega)⟩
    by_contra hh
    have h2 := owner_before_block hp (i := c - 1) (by omega)
    rw [show c - 1 + 1 = c by omega] at h2
    have := owner_mono p (show t.dst.seg ≤ c * (p.rate / p.nClusterNodes) - 1 by omega)
    omega
  by_cases hw : t.src.seg + k < p.rate
  · rw [if_pos hw] at k3
    have hm := owner_mono p (show t.src.seg ≤ t.dst.seg by omega)
    rw [if_pos hm] at hi
    rw [modlt _ (by omega)]
    obtain ⟨a1, a2, a3⟩ := above _ rfl (by omega)
    obtain ⟨b1, b2⟩ := below (owner p t.src.seg + (i + 1)) (by omega) (by omega)
    generalize (owner p t.src.seg + (i + 1)) * (p.rate / p.nClusterNodes) = w at *
    refine ⟨w - 1 - t.src.seg, by omega, ?_, ?_, fun h => a3 (by omega)⟩
    · rw [Nat.mod_eq_of_lt (by omega)]; omega
    · obtain ⟨v, rfl⟩ : ∃ v, w = v + 1 := ⟨w - 1, by omega⟩
      rw [segBefore_succ (by omega), Nat.mod_eq_of_lt (by omega)]; omega
  · rw [if_neg hw] at k3
    have hn1 : 2 ≤ p.nClusterNodes := by
      by_contra hn
      split at hi <;> omega
    have hBA := owner_mono p (show t.dst.seg ≤ t.src.seg by omega)
    have hne : owner p t.src.seg ≠ owner p t.dst.seg := fun e =>
      Edges.not_both_sides hp hn1 hf (t := t.dst.seg) (by omega) hA e.symm (le_refl _) rfl (le_refl _)
    rw [if_neg (by omega)] at hi
    rcases Nat.lt_trichotomy (owner p t.src.seg + (i + 1)) p.nClusterNodes with hc | hc | hc
    · rw [modlt _ hc]
      obtain ⟨a1, a2, a3⟩ := above _ rfl hc
      generalize (owner p t.src.seg + (i + 1)) * (p.rate / p.nClusterNodes) = w at *
      refine ⟨w - 1 - t.src.seg, by omega, ?_, ?_, fun h => a3 (by omega)⟩
      · rw [Nat.mod_eq_of_lt (by omega)]; omega
      · obtain ⟨v, rfl⟩ : ∃ v, w = v + 1 := ⟨w - 1, by omega⟩
        rw [segBefore_succ (by omega), Nat.mod_eq_of_lt (by omega)]; omega
    · rw [hc, Nat.mod_self, Nat.zero_mul, segBefore_zero (by omega)]
      refine ⟨p.rate - 1 - t.src.seg, by omega, ?_, ?_, ?_⟩
      · rw [show t.src.seg + (p.rate - 1 - t.src.seg + 1) = p.rate by omega, Nat.mod_self]
      · rw [Nat.mod_eq_of_lt (by omega)]; omega
      · intro h
        have h2 := owner_last hp
        rw [show p.rate - 1 = t.src.seg by omega] at h2
        omega
    · obtain ⟨c, hc'⟩ : ∃ c, owner p t.src.seg + (i + 1) = c + p.nClusterNodes :=
        ⟨owner p t.src.seg + (i + 1) - p.nClusterNodes, by omega⟩
      rw [hc', Nat.add_mod_right, modlt _ (by omega)]
      obtain ⟨b1, b2⟩ := below c (by omega) (by omega)
      generalize c * (p.rate / p.nClusterNodes) = w at *
      refine ⟨p.rate - t.src.seg + w - 1, by omega, ?_, ?_, by omega⟩
      · rw [show t.src.seg + (p.rate - t.src.seg + w - 1 + 1) = w + p.rate by omega, Nat.add_mod_right,
          Nat.mod_eq_of_lt (by omega)]
      · obtain ⟨v, rfl⟩ : ∃ v, w = v + 1 := ⟨w - 1, by omega⟩
        rw [segBefore_succ (by omega), show t.src.seg + (p.rate - t.src.seg + (v + 1) - 1) = v + p.rate by omega,
          Nat.add_mod_right, Nat.mod_eq_of_lt (by omega)]

/-! ### The questions of one step -/

theorem niqPairs_map (g : Nat → Nat × Nat) (a k : Nat) :
    ∀ q, q ∈ niqPairs ((List.range' a (k + 1)).map g) ↔
      ∃ j < k, q = ⟨(g (a + j)).1, (g (a + j)).2, (g (a + j + 1)).1, (g (a + j + 1)).2⟩ := by
  induction k generalizing a with
  | zero => intro q; simp [niqPairs]
  | succ k ih =>
    intro q
    rw [List.range'_succ, List.range'_succ, List.map_cons, List.map_cons, niqPairs, List.mem_cons, ← List.map_cons,
      ← List.range'_succ, ih]
    constructor
    · rintro (rfl | ⟨j, hj, rfl⟩)
      · exact ⟨0, by omega, rfl⟩
      · refine ⟨j + 1, by omega, ?_⟩
        rw [show a + 1 + j = a + (j + 1) by omega]
    · rintro ⟨j, hj, rfl⟩
      cases j with
      | zero => exact Or.inl rfl
      | succ j =>
        refine Or.inr ⟨j, by omega, ?_⟩
        rw [show a + 1 + j = a + (j + 1) by omega]

/-- The successions of a valid step, explicitly. -/
theorem mem_successions {rate : Nat} (t : Trans) (hf : t.src.seg < rate) (ht : t.dst.seg < rate)
    (hv : t.isValid rate = true) {k : Nat} (hk : Trans.ForwardBy rate t.src.seg t.dst.seg k) (prev : Option Trans)
    (q : NIQ) : q ∈ successions rate prev t ↔
      (∃ pr ∈ prev, q = ⟨pr.src.id, pr.dst.seg, t.src.id, (t.src.seg + 1) % rate⟩) ∨
      ∃ j < k, 1 ≤ j ∧ q = ⟨t.src.id, (t.src.seg + j) % rate, t.src.id, (t.src.seg + (j + 1)) % rate⟩ := by
  obtain ⟨k', hk', hseg, -, -⟩ := Trans.C30_segments t hf ht hv
  have := Trans.forwardBy_unique hf hk hk'
  subst this
  have hkeys : stepKeys rate t = (List.range' 1 k).map (fun j => (t.src.id, (t.src.seg + j) % rate)) := by
    rw [stepKeys, hseg, List.map_map, List.range'_eq_map_range, List.map_map]
    apply List.map_congr_left
    intro j _
    simp [Nat.add_comm 1 j]
  obtain ⟨m, hm⟩ : ∃ m, k = m + 1 := ⟨k - 1, by have := hk.1; omega⟩
  have hin := niqPairs_map (fun j => (t.src.id, (t.src.seg + j) % rate)) 1 m q
  have hin' : q ∈ niqPairs (stepKeys rate t) ↔
      ∃ j < k, 1 ≤ j ∧ q = ⟨t.src.id, (t.src.seg + j) % rate, t.src.id, (t.src.seg + (j + 1)) % rate⟩ := by
    rw [hkeys, hm, hin]
    constructor
    · rintro ⟨j, hj, rfl⟩
      exact ⟨1 + j, by omega, by omega, by simp [Nat.add_assoc]⟩
    · rintro ⟨j, hj, h1, rfl⟩
      refine ⟨j - 1, by omega, ?_⟩
      rw [show 1 + (j - 1) = j by omega]
  unfold successions
  cases prev with
  | none => simp only [Option.map_none, Option.toList_none, List.nil_append, hin']; simp
  | some pr =>
    have hc : stepKeys rate t = (t.src.id, (t.src.seg + 1) % rate) ::
        (List.range' 2 m).map (fun j => (t.src.id, (t.src.seg + j) % rate)) := by
      rw [hkeys, hm, List.range'_succ, List.map_cons]
    simp only [Option.map_some, Option.toList_some, List.singleton_append]
    rw [← hin']
    rw [hc, niqPairs, List.mem_cons]
    simp [lastKey]

theorem wantedSeg_lt {p : Parameters} (hp : p.WellFormed) (t : Trans) (i : Nat) : wantedSeg p t i < p.rate := by
  unfold wantedSeg
  exact block_start_le hp (Nat.mod_lt _ hp.1)

/-- The question without predecessor: it asks for the successor of a node that does not exist (the step has no node in
the segment it starts in). -/
def phantom (rate : Nat) (t : Trans) : NIQ := ⟨t.src.id, t.src.seg, t.src.id, (t.src.seg + 1) % rate⟩

/-- C42: among the questions asked for a valid step following the valid step `pr`, those recorded (predecessor and
successor at different nodes) are exactly the successions between nodes of different owners. -/
theorem C42_asks {p : Parameters} (hp : p.WellFormed) (t : Trans) (hf : t.src.seg < p.rate) (ht : t.dst.seg < p.rate)
    (hv : t.isValid p.rate = true) (pr : Trans) (q : NIQ) :
    (q ∈ asks p (some pr) t ∧ Cross p q) ↔ (q ∈ successions p.rate (some pr) t ∧ Cross p q) := by
  obtain ⟨k, hk⟩ := (Trans.C26_valid_iff t hf ht).1 hv
  have hk1 := hk.1
  have hk2 := hk.2.1
  rw [mem_successions t hf ht hv hk]
  apply and_congr_left
  intro hc
  have hfirst : t.firstIntersectionSegment p.rate = (t.src.seg + 1) % p.rate := rfl
  have hinj : ∀ j < k, (t.src.seg + (j + 1)) % p.rate = (t.src.seg + 1) % p.rate → j = 0 := by
    intro j hj e
    rw [Trans.mod_cases hf (by omega), Trans.mod_cases hf (by omega)] at e
    split at e <;> split at e <;> omega
  have hdiff : owner p t.src.seg = owner p t.dst.seg →
      clusterNodeDiff p (owner p t.src.seg) (owner p t.dst.seg) = 0 := by
    intro e
    rw [clusterNodeDiff_eq (owner_lt hp _) (owner_lt hp _), e]
    simp
  rw [asks, List.mem_append]
  constructor
  · rintro (h | h)
    · left
      simp only [askBetween] at h
      split at h
      · simp only [List.mem_singleton] at h
        exact ⟨pr, rfl, h⟩
      · cases h
    · unfold askWithin at h
      split at h
      · obtain ⟨i, hi, rfl⟩ := List.mem_map.1 h
        rw [List.mem_range] at hi
        obtain ⟨j, hj, e1, e2, e3⟩ := wanted_on_path hp t hf hk hi
        have hw := Nat.mod_eq_of_lt (wantedSeg_lt hp t i)
        simp only [askWithinOne] at hc ⊢
        by_cases hc0 : wantedSeg p t i = t.firstIntersectionSegment p.rate ∧ i = 0
        · left
          rw [if_pos hc0, hw, hc0.1]
          exact ⟨pr, rfl, rfl⟩
        · right
          rw [if_neg hc0, hw]
          refine ⟨j, hj, ?_, ?_⟩
          · by_contra hj0
            have hj0 : j = 0 := by omega
            subst hj0
            exact hc0 ⟨e1.symm, e3 rfl⟩
          · rw [← e2, ← e1]
      · cases h
  · rintro (⟨pr', h, rfl⟩ | ⟨j, hj, hj1, rfl⟩)
    · cases h
      by_cases hb : owner p t.src.seg ≠ owner p pr.dst.seg
      · left
        simp only [askBetween]
        rw [if_pos hb]
        simp [hfirst]
      · right
        have hb : owner p t.src.seg = owner p pr.dst.seg := not_not.1 hb
        have hc' : owner p ((t.src.seg + 0) % p.rate) ≠ owner p ((t.src.seg + (0 + 1)) % p.rate) := by
          rw [Nat.add_zero, Nat.mod_eq_of_lt hf, hb]
          exact hc
        obtain ⟨i, hi, e⟩ := cross_wanted hp t hf hk (j := 0) (by omega) hc'
        have hne : owner p t.src.seg ≠ owner p t.dst.seg := fun e' => by rw [hdiff e'] at hi; omega
        obtain ⟨j, hj, e1, e2, e3⟩ := wanted_on_path hp t hf hk hi
        have hj0 : j = 0 := hinj j hj (by rw [e1, e])
        have hi0 := e3 hj0
        unfold askWithin
        rw [if_pos hne, List.mem_map]
        refine ⟨i, List.mem_range.2 hi, ?_⟩
        simp only [askWithinOne]
        rw [if_pos ⟨by rw [e, hfirst], hi0⟩, Nat.mod_eq_of_lt (wantedSeg_lt hp t i), e]
    · right
      obtain ⟨i, hi, e⟩ := cross_wanted hp t hf hk hj hc
      have hne : owner p t.src.seg ≠ owner p t.dst.seg := fun e' => by rw [hdiff e'] at hi; omega
      unfold askWithin
      rw [if_pos hne, List.mem_map]
      refine ⟨i, List.mem_range.2 hi, ?_⟩
      simp only [askWithinOne]
      have hnf : ¬ (wantedSeg p t i = t.firstIntersectionSegment p.rate ∧ i = 0) := by
        rintro ⟨h, -⟩
        have := hinj j hj (by rw [← e, h, hfirst])
        omega
      rw [if_neg hnf, Nat.mod_eq_of_lt (wantedSeg_lt hp t i), e]
      congr 1
      obtain ⟨j', hj', e1, e2, -⟩ := wanted_on_path hp t hf hk hi
      have hjj : j' = j := by
        have h := e1.trans e
        rw [Trans.mod_cases hf (by omega), Trans.mod_cases hf (by omega)] at h
        split at h <;> split at h <;> omega
      rw [e] at e2
      rw [← e2, hjj]

/-- C42 for a step without known predecessor: the recorded questions are the successions within the step between nodes
of different owners and, if the step enters another block at once, a question about a node that does not exist. -/
theorem C42_asks_first {p : Parameters} (hp : p.WellFormed) (t : Trans) (hf : t.src.seg < p.rate)
    (ht : t.dst.seg < p.rate) (hv : t.isValid p.rate = true) (q : NIQ) :
    (q ∈ asks p none t ∧ Cross p q) ↔ ((q ∈ successions p.rate none t ∨ q = phantom p.rate t) ∧ Cross p q) := by
  obtain ⟨k, hk⟩ := (Trans.C26_valid_iff t hf ht).1 hv
  have hk1 := hk.1
  have hk2 := hk.2.1
  rw [mem_successions t hf ht hv hk]
  apply and_congr_left
  intro hc
  have hdiff : owner p t.src.seg = owner p t.dst.seg →
      clusterNodeDiff p (owner p t.src.seg) (owner p t.dst.seg) = 0 := by
    intro e
    rw [clusterNodeDiff_eq (owner_lt hp _) (owner_lt hp _), e]
    simp
  have key : ∀ j < k, q = ⟨t.src.id, (t.src.seg + j) % p.rate, t.src.id, (t.src.seg + (j + 1)) % p.rate⟩ →
      q ∈ asks p none t := by
    rintro j hj rfl
    obtain ⟨i, hi, e⟩ := cross_wanted hp t hf hk hj hc
    have hne : owner p t.src.seg ≠ owner p t.dst.seg := fun e' => by rw [hdiff e'] at hi; omega
    unfold asks askWithin
    rw [if_pos hne, List.mem_append, List.mem_map]
    refine Or.inr ⟨i, List.mem_range.2 hi, ?_⟩
    simp only [askWithinOne]
    rw [Nat.mod_eq_of_lt (wantedSeg_lt hp t i), e]
    congr 1
    obtain ⟨j', hj', e1, e2, -⟩ := wanted_on_path hp t hf hk hi
    have hjj : j' = j := by
      have h := e1.trans e
      rw [Trans.mod_cases hf (by omega), Trans.mod_cases hf (by omega)] at h
      split at h <;> split at h <;> omega
    rw [e] at e2
    rw [← e2, hjj]
  constructor
  · intro h
    simp only [asks, askBetween, List.nil_append] at h
    unfold askWithin at h
    split at h
    · obtain ⟨i, hi, rfl⟩ := List.mem_map.1 h
      rw [List.mem_range] at hi
      obtain ⟨j, hj, e1, e2, e3⟩ := wanted_on_path hp t hf hk hi
      simp only [askWithinOne]
      rw [Nat.mod_eq_of_lt (wantedSeg_lt hp t i), ← e2, ← e1]
      by_cases hj0 : j = 0
      · right
        subst hj0
        rw [Nat.add_zero, Nat.mod_eq_of_lt hf]
        rfl
      · left; right
        exact ⟨j, hj, by omega, rfl⟩
    · cases h
  · rintro ((⟨pr, h, -⟩ | ⟨j, hj, hj1, e⟩) | rfl)
    · cases h
    · exact key j hj e
    · apply key 0 (by omega)
      rw [Nat.add_zero, Nat.mod_eq_of_lt hf]
      rfl

/-! ### Recording -/

theorem mem_dedupConsecutive (q : NIQ) (l : List NIQ) : q ∈ dedupConsecutive l ↔ q ∈ l := by
  induction l with
  | nil => simp [dedupConsecutive]
  | cons a l ih =>
    cases l with
    | nil => simp [dedupConsecutive]
    | cons b l =>
      rw [dedupConsecutive]
      split
      · next h => subst h; rw [ih]; simp
      · rw [List.mem_cons, ih, List.mem_cons (a := q) (b := a)]

theorem mem_addQ (p : Parameters) (Q : NodeQuestions) (n q : NIQ) (a b : Nat) :
    q ∈ addQ p Q n a b ↔ q ∈ Q a b ∨ (q = n ∧ a = owner p q.seg ∧ b = owner p q.prevSeg ∧ a ≠ b) := by
  unfold addQ NodeQuestions.addNiq
  split
  · next h =>
    simp only
    split
    · next h2 =>
      obtain ⟨rfl, rfl⟩ := h2
      rw [mem_dedupConsecutive, List.mem_append, List.mem_singleton]
      constructor
      · rintro (h' | rfl)
        · exact Or.inl h'
        · exact Or.inr ⟨rfl, rfl, rfl, fun e => h e.symm⟩
      · rintro (h' | h')
        · exact Or.inl h'
        · exact Or.inr h'.1
    · next h2 =>
      constructor
      · exact Or.inl
      · rintro (h' | ⟨rfl, rfl, rfl, -⟩)
        · exact h'
        · exact absurd ⟨rfl, rfl⟩ h2
  · next h =>
    constructor
    · exact Or.inl
    · rintro (h' | ⟨rfl, rfl, rfl, hne⟩)
      · exact h'
      · exact absurd (fun e => hne e.symm) h

/-- C42: a question is recorded for the answering node `a` and the asking node `b` iff it was asked, `a` owns the
successor, `b` owns the predecessor, and the two differ. -/
theorem C42_recorded (p : Parameters) (l : List NIQ) (q : NIQ) (a b : Nat) :
    q ∈ l.foldl (addQ p) NodeQuestions.clear a b ↔
      q ∈ l ∧ a = owner p q.seg ∧ b = owner p q.prevSeg ∧ a ≠ b := by
  induction l using List.reverseRecOn with
  | nil => simp [NodeQuestions.clear]
  | append_singleton l n ih =>
    rw [List.foldl_append, List.foldl_cons, List.foldl_nil, mem_addQ, ih, List.mem_append, List.mem_singleton]
    tauto

/-- The questions of consecutive valid steps which concern two different nodes. -/
theorem mem_questionsAll {p : Parameters} (hp : p.WellFormed) {ts : List Trans}
    (hv : ∀ t ∈ ts, t.src.seg < p.rate ∧ t.dst.seg < p.rate ∧ t.isValid p.rate = true) (q : NIQ) :
    (q ∈ SegState.questionsAll p ts ∧ Cross p q) ↔
      ((∃ x ∈ withPrev ts, q ∈ successions p.rate x.1 x.2) ∨ ∃ t ∈ ts.head?, q = phantom p.rate t) ∧ Cross p q := by
  have hmem : ∀ x ∈ withPrev ts, x.2 ∈ ts := fun x hx => (List.of_mem_zip hx).2
  have hnone : ∀ x ∈ withPrev ts, x.1 = none → ts.head? = some x.2 := by
    intro x hx h0
    cases ts with
    | nil => simp [withPrev] at hx
    | cons t ts =>
      simp only [withPrev, List.map_cons, List.zip_cons_cons, List.mem_cons] at hx
      rcases hx with rfl | hx
      · rfl
      · have := (List.of_mem_zip hx).1
        rw [← List.map_cons, h0] at this
        simp at this
  apply and_congr_left
  intro hc
  unfold SegState.questionsAll
  rw [List.mem_flatMap]
  constructor
  · rintro ⟨x, hx, h⟩
    obtain ⟨h1, h2, h3⟩ := hv _ (hmem x hx)
    obtain ⟨pr, t⟩ := x
    cases pr with
    | none =>
      rcases ((C42_asks_first hp t h1 h2 h3 q).1 ⟨h, hc⟩).1 with h | h
      · exact Or.inl ⟨_, hx, h⟩
      · exact Or.inr ⟨t, hnone _ hx rfl, h⟩
    | some pr => exact Or.inl ⟨_, hx, ((C42_asks hp t h1 h2 h3 pr q).1 ⟨h, hc⟩).1⟩
  · rintro (⟨x, hx, h⟩ | ⟨t, ht, h⟩)
    · refine ⟨x, hx, ?_⟩
      obtain ⟨h1, h2, h3⟩ := hv _ (hmem x hx)
      obtain ⟨pr, t⟩ := x
      cases pr with
      | none => exact ((C42_asks_first hp t h1 h2 h3 q).2 ⟨Or.inl h, hc⟩).1
      | some pr => exact ((C42_asks hp t h1 h2 h3 pr q).2 ⟨h, hc⟩).1
    · cases ts with
      | nil => cases ht
      | cons u ts =>
        cases ht
        refine ⟨(none, t), by simp [withPrev], ?_⟩
        obtain ⟨h1, h2, h3⟩ := hv t (by simp)
        exact ((C42_asks_first hp t h1 h2 h3 q).2 ⟨Or.inr h, hc⟩).1

theorem mem_steps {t : Trans} : ∀ {pts : List Pt}, t ∈ steps pts → t.src ∈ pts ∧ t.dst ∈ pts
  | a :: b :: l, h => by
    rw [steps, List.mem_cons] at h
    rcases h with rfl | h
    · simp
    · have := mem_steps h
      exact ⟨List.mem_cons_of_mem _ this.1, List.mem_cons_of_mem _ this.2⟩
  | [_], h => by simp [steps] at h
  | [], h => by simp [steps] at h

theorem validSteps_valid {rate : Nat} {pts : List Pt} (hr : ∀ x ∈ pts, x.seg < rate) :
    ∀ t ∈ validSteps rate pts, t.src.seg < rate ∧ t.dst.seg < rate ∧ t.isValid rate = true := by
  intro t ht
  obtain ⟨h1, h2⟩ := List.mem_filter.1 ht
  obtain ⟨h3, h4⟩ := mem_steps h1
  exact ⟨hr _ h3, hr _ h4, h2⟩

/-- C42, for `build_segments` on any points: a question is recorded at this node for answering node `a` and asking node
`b` iff it is a succession of nodes along the valid steps of the points (or the harmless question about the start of
the first step), `a` owns the successor, `b` owns the predecessor, and `a ≠ b`. -/
theorem C42_built {p : Parameters} (hp : p.WellFormed) (own : Nat) {pts : List Pt} (hr : ∀ x ∈ pts, x.seg < p.rate)
    {s : SegState} (h : SegState.buildSegments p own {} pts = some s) (q : NIQ) (a b : Nat) :
    q ∈ s.questions a b ↔
      ((∃ x ∈ withPrev (validSteps p.rate pts), q ∈ successions p.rate x.1 x.2) ∨
        ∃ t ∈ (validSteps p.rate pts).head?, q = phantom p.rate t) ∧
      a = owner p q.seg ∧ b = owner p q.prevSeg ∧ a ≠ b := by
  obtain ⟨s', hs', hb⟩ := SegState.buildSegments_built hp own {} pts
  rw [hs'] at h
  cases h
  rw [hb.questions]
  change q ∈ List.foldl (addQ p) NodeQuestions.clear _ a b ↔ _
  rw [C42_recorded]
  have := mem_questionsAll hp (validSteps_valid hr) q
  constructor
  · rintro ⟨h1, rfl, rfl, h4⟩
    exact ⟨(this.1 ⟨h1, fun e => h4 e.symm⟩).1, rfl, rfl, h4⟩
  · rintro ⟨h1, rfl, rfl, h4⟩
    exact ⟨(this.2 ⟨h1, fun e => h4 e.symm⟩).1, rfl, rfl, h4⟩

/-! ### Concrete instances: 8 segments on 2 nodes (segments 0-3 and 4-7) -/

/-- entering the other block in the middle of a step -/
example : asks SegNet.exP (some ⟨⟨0, 1⟩, ⟨1, 2⟩⟩) ⟨⟨1, 2⟩, ⟨2, 6⟩⟩ = [⟨1, 3, 1, 4⟩] ∧
    successions 8 (some ⟨⟨0, 1⟩, ⟨1, 2⟩⟩) ⟨⟨1, 2⟩, ⟨2, 6⟩⟩ = [⟨0, 2, 1, 3⟩, ⟨1, 3, 1, 4⟩, ⟨1, 4, 1, 5⟩, ⟨1, 5, 1, 6⟩] := by
  decide
/-- entering the other block at once: the predecessor is the last node of the previous step -/
example : asks SegNet.exP (some ⟨⟨0, 1⟩, ⟨1, 3⟩⟩) ⟨⟨1, 3⟩, ⟨2, 6⟩⟩ = [⟨0, 3, 1, 4⟩] := by decide
/-- across the start of the circle, after a jump between the blocks -/
example : asks SegNet.exP (some ⟨⟨0, 1⟩, ⟨1, 3⟩⟩) ⟨⟨2, 6⟩, ⟨3, 1⟩⟩ = [⟨0, 3, 2, 7⟩, ⟨2, 7, 2, 0⟩] := by decide
/-- the harmless question of a first step -/
example : asks SegNet.exP none ⟨⟨1, 3⟩, ⟨2, 6⟩⟩ = [phantom 8 ⟨⟨1, 3⟩, ⟨2, 6⟩⟩] := by decide

end S2G
