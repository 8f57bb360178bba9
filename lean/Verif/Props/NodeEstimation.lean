import Verif.Model.NodeEstimation
import Verif.Props.Intersections
import Verif.Props.KdeDensity

/-!
# C33: every intersection becomes exactly one node
-/

namespace S2G
namespace NodeEst
variable {X : Type}

/-- Point and segment of a node. -/
def key (v : Node) : Nat × Nat := (v.fromId, v.seg)

/-- Point and segment of an intersection. -/
def ikey (x : Inter) : Nat × Nat := (x.1.src.id, x.2)

/-- Assumption on the clustering: one label per intersection. -/
def OneLabelEach (clu : List X → Option (List Nat)) : Prop :=
  ∀ xs labels, 2 ≤ xs.length → clu xs = some labels → labels.length = xs.length

theorem segmentLabels_length {clu : List X → Option (List Nat)} (hc : OneLabelEach clu) {coord : Inter → X}
    {xs : List Inter} {labels : List Nat} (h : segmentLabels clu coord xs = some labels) :
    labels.length = xs.length := by
  unfold segmentLabels at h
  split at h
  · cases h; rfl
  · cases h; rfl
  · rename_i h1 h2
    have hl : 2 ≤ xs.length := by
      match xs, h1, h2 with
      | [], h1, _ => exact absurd rfl h1
      | [a], _, h2 => exact absurd rfl (h2 a)
      | a :: b :: l, _, _ => simp
    have := hc _ _ (by rw [List.length_map]; exact hl) h
    rwa [List.length_map] at this

theorem segmentNodes_key {xs : List Inter} {labels : List Nat} (h : labels.length = xs.length) :
    (segmentNodes xs labels).map key = xs.map ikey := by
  unfold segmentNodes
  rw [List.map_map]
  have : ((key ∘ fun e : Inter × Nat => (⟨e.1.2, e.2, e.1.1.src.id⟩ : Node)) : Inter × Nat → Nat × Nat)
      = ikey ∘ Prod.fst := rfl
  rw [this, ← List.map_map, List.map_fst_zip (by omega)]

theorem estimateLoop_spec {clu : List X → Option (List Nat)} (hc : OneLabelEach clu) {coord : Inter → X} {rate : Nat}
    {stored : List Inter} (k : Nat) : ∀ (seg : Nat) (nodes out : List Node), rate - seg = k → seg < rate →
    estimateLoop clu coord rate stored seg nodes = some out →
    ∃ new, out = nodes ++ new ∧ (∀ v ∈ new, seg ≤ v.seg) ∧ new.Pairwise (fun v w => v.seg ≤ w.seg) ∧
      new.map key = (List.range' seg (rate - seg)).flatMap (fun s => (stored.filter (fun x => x.2 = s)).map ikey) := by
  induction k with
  | zero => intro seg nodes out hk hs; omega
  | succ k ih =>
    intro seg nodes out hk hs h
    rw [estimateLoop] at h
    simp only [Option.bind_eq_bind, Option.bind_eq_some_iff] at h
    obtain ⟨labels, hl, h⟩ := h
    have hll := segmentLabels_length hc hl
    have hkey := segmentNodes_key hll
    have hsegs : ∀ v ∈ segmentNodes (stored.filter (fun x => decide (x.2 = seg))) labels, v.seg = seg := by
      intro v hv
      have : key v ∈ (stored.filter (fun x => decide (x.2 = seg))).map ikey := by
        rw [← hkey]; exact List.mem_map_of_mem hv
      obtain ⟨x, hx, e⟩ := List.mem_map.1 this
      have h2 := (List.mem_filter.1 hx).2
      simp only [decide_eq_true_eq] at h2
      rw [show v.seg = (key v).2 from rfl, ← e]
      exact h2
    have hpair : (segmentNodes (stored.filter (fun x => decide (x.2 = seg))) labels).Pairwise
        (fun v w => v.seg ≤ w.seg) := by
      rw [List.pairwise_iff_forall_sublist]
      intro a b hab
      have ha : a ∈ segmentNodes (stored.filter (fun x => decide (x.2 = seg))) labels :=
        hab.subset (by simp)
      have hb : b ∈ segmentNodes (stored.filter (fun x => decide (x.2 = seg))) labels :=
        hab.subset (by simp)
      rw [hsegs a ha, hsegs b hb]
    split at h
    · rename_i hlt
      obtain ⟨new, h1, h2, h3, h4⟩ := ih (seg + 1) _ out (by omega) hlt h
      refine ⟨segmentNodes (stored.filter (fun x => decide (x.2 = seg))) labels ++ new, ?_, ?_, ?_, ?_⟩
      · rw [h1, List.append_assoc]
      · intro v hv
        rcases List.mem_append.1 hv with hv | hv
        · rw [hsegs v hv]
        · have := h2 v hv; omega
      · rw [List.pairwise_append]
        refine ⟨hpair, h3, ?_⟩
        intro a ha b hb
        have := h2 b hb
        rw [hsegs a ha]; omega
      · rw [List.map_append, hkey, h4, show rate - seg = rate - (seg + 1) + 1 by omega, List.range'_succ,
          List.flatMap_cons]
    · rename_i hge
      simp only [Option.some.injEq] at h
      refine ⟨segmentNodes (stored.filter (fun x => decide (x.2 = seg))) labels, h.symm, ?_, hpair, ?_⟩
      · intro v hv; rw [hsegs v hv]
      · rw [hkey, show rate - seg = 1 by omega]
        simp

theorem startSegment_eq {p : Parameters} (hp : p.WellFormed) (own : Nat) :
    startSegment p own = some (p.rate / p.nClusterNodes * own) := by
  have : p.nClusterNodes ≠ 0 := by have := hp.1; omega
  simp [startSegment, checkedDiv, this]

theorem start_lt {p : Parameters} (hp : p.WellFormed) {own : Nat} (ho : own < p.nClusterNodes) :
    p.rate / p.nClusterNodes * own < p.rate := by
  have h1 := Parameters.spn_pos hp
  have h2 : p.rate / p.nClusterNodes * p.nClusterNodes ≤ p.rate := Nat.div_mul_le_self _ _
  have h3 : p.rate / p.nClusterNodes * own < p.rate / p.nClusterNodes * p.nClusterNodes :=
    Nat.mul_lt_mul_of_pos_left ho (by omega)
  omega

/-- Grouping by ascending keys of an interval is a permutation. -/
theorem range'_group_perm {α : Type} (f : α → Nat) (xs : List α) (a n : Nat) (h : ∀ x ∈ xs, a ≤ f x ∧ f x < a + n) :
    ((List.range' a n).flatMap (fun s => xs.filter (fun x => f x = s))).Perm xs := by
  have := Inter.groupBy_perm (fun x => f x - a) xs n (fun x hx => by have := h x hx; omega)
  rw [List.range'_eq_map_range, List.flatMap_map]
  refine List.Perm.trans (List.Perm.of_eq ?_) this
  apply List.flatMap_congr
  intro s _
  apply List.filter_congr
  intro x hx
  have := h x hx
  by_cases e : f x = a + s
  · simp [e]
  · have : ¬ f x - a = s := by omega
    simp [e, this]

/-- C33: if node estimation at node `own` ends, its nodes are, by point and segment, exactly the stored
intersections (each exactly once), in ascending order of segments; so are the nodes of each single step. -/
theorem C33_nodes {clu : List X → Option (List Nat)} (hc : OneLabelEach clu) {coord : Inter → X} {p : Parameters}
    (hp : p.WellFormed) {own : Nat} (ho : own < p.nClusterNodes) {stored : List Inter}
    (hs : ∀ x ∈ stored, x.2 < p.rate ∧ p.segmentIdToAssignment x.2 = some own) {nodes : List Node}
    (h : estimateNodes clu coord p own stored = some nodes) :
    (nodes.map key).Perm (stored.map ikey) ∧ nodes.Pairwise (fun v w => v.seg ≤ w.seg) ∧
      ∀ pid, ((nodesOf nodes pid).map Node.seg).Perm
          ((stored.filter (fun x => x.1.src.id = pid)).map (fun x => x.2)) ∧
        (nodesOf nodes pid).Pairwise (fun v w => v.seg ≤ w.seg) := by
  simp only [estimateNodes, startSegment_eq hp, Option.bind_eq_bind, Option.bind_some] at h
  obtain ⟨new, h1, h2, h3, h4⟩ := estimateLoop_spec hc _ _ _ _ rfl (start_lt hp ho) h
  rw [List.nil_append] at h1
  subst h1
  have hperm : (nodes.map key).Perm (stored.map ikey) := by
    rw [h4]
    have hg := range'_group_perm (fun x : Inter => x.2) stored (p.rate / p.nClusterNodes * own)
      (p.rate - p.rate / p.nClusterNodes * own) (by
        intro x hx
        obtain ⟨a, b⟩ := hs x hx
        have := ((Parameters.C01_owner_block hp ho).1 b).1
        have := start_lt hp ho
        rw [Nat.mul_comm] at this ⊢
        omega)
    have hg := hg.map ikey
    rwa [List.map_flatMap] at hg
  refine ⟨hperm, h3, ?_⟩
  intro pid
  refine ⟨?_, List.Pairwise.filter _ h3⟩
  have hf := (hperm.filter (fun k => decide (k.1 = pid))).map Prod.snd
  rw [List.filter_map, List.filter_map, List.map_map, List.map_map] at hf
  exact hf

theorem estimateLoop_labels {clu : List X → Option (List Nat)} (hc : OneLabelEach clu) {coord : Inter → X} {rate : Nat}
    {stored : List Inter} (k : Nat) : ∀ (seg : Nat) (nodes out : List Node), rate - seg = k → seg < rate →
    (∀ v ∈ nodes, v.seg < seg) → estimateLoop clu coord rate stored seg nodes = some out →
    ∀ s, seg ≤ s → s < rate → ∃ labels, segmentLabels clu coord (stored.filter (fun x => x.2 = s)) = some labels ∧
      out.filter (fun v => v.seg = s) = segmentNodes (stored.filter (fun x => x.2 = s)) labels := by
  induction k with
  | zero => intro seg nodes out hk hs; omega
  | succ k ih =>
    intro seg nodes out hk hs hn h s h1 h2
    rw [estimateLoop] at h
    simp only [Option.bind_eq_bind, Option.bind_eq_some_iff] at h
    obtain ⟨labels, hl, h⟩ := h
    have hsegs : ∀ v ∈ segmentNodes (stored.filter (fun x => decide (x.2 = seg))) labels, v.seg = seg := by
      intro v hv
      obtain ⟨e, he, rfl⟩ := List.mem_map.1 hv
      have := (List.mem_filter.1 (List.of_mem_zip he).1).2
      simpa using this
    have hn0 : nodes.filter (fun v => decide (v.seg = seg)) = [] := by
      rw [List.filter_eq_nil_iff]
      intro v hv
      have := hn v hv
      simp; omega
    have hself : (segmentNodes (stored.filter (fun x => decide (x.2 = seg))) labels).filter (fun v => decide (v.seg = seg)) =
        segmentNodes (stored.filter (fun x => decide (x.2 = seg))) labels := by
      rw [List.filter_eq_self]
      intro v hv
      simpa using hsegs v hv
    split at h
    · rename_i hlt
      by_cases hse : s = seg
      · subst hse
        obtain ⟨new, e1, e2, _⟩ := estimateLoop_spec hc k (s + 1) _ out (by omega) hlt h
        refine ⟨labels, hl, ?_⟩
        have : new.filter (fun v => decide (v.seg = s)) = [] := by
          rw [List.filter_eq_nil_iff]
          intro v hv
          have := e2 v hv
          simp; omega
        rw [e1, List.filter_append, List.filter_append, hn0, hself, this]
        simp
      · refine ih (seg + 1) _ out (by omega) hlt ?_ h s (by omega) h2
        intro v hv
        rcases List.mem_append.1 hv with hv | hv
        · have := hn v hv; omega
        · have := hsegs v hv; omega
    · obtain rfl : s = seg := by omega
      simp only [Option.some.injEq] at h
      refine ⟨labels, hl, ?_⟩
      rw [← h, List.filter_append, hn0, hself]
      rfl

/-- C33: the nodes of a segment are its stored intersections, in their order, with the labels of the clustering; a single
intersection is not clustered, its label is 0. -/
theorem C33_labels {clu : List X → Option (List Nat)} (hc : OneLabelEach clu) {coord : Inter → X} {p : Parameters}
    (hp : p.WellFormed) {own : Nat} (ho : own < p.nClusterNodes) {stored : List Inter} {nodes : List Node}
    (h : estimateNodes clu coord p own stored = some nodes) {s : Nat} (h1 : p.rate / p.nClusterNodes * own ≤ s) (h2 : s < p.rate) :
    ∃ labels : List Nat, labels.length = (stored.filter (fun x => x.2 = s)).length ∧
      nodes.filter (fun v => v.seg = s) =
        List.zipWith (fun (x : Inter) l => ⟨s, l, x.1.src.id⟩) (stored.filter (fun x => x.2 = s)) labels ∧
      ((stored.filter (fun x => x.2 = s)).length = 1 → labels = [0]) ∧
      (2 ≤ (stored.filter (fun x => x.2 = s)).length → clu ((stored.filter (fun x => x.2 = s)).map coord) = some labels) := by
  simp only [estimateNodes, startSegment_eq hp, Option.bind_eq_bind, Option.bind_some] at h
  obtain ⟨labels, e1, e2⟩ := estimateLoop_labels hc _ _ _ _ rfl (start_lt hp ho) (by simp) h s h1 h2
  have hx : ∀ x ∈ stored.filter (fun x => decide (x.2 = s)), x.2 = s := by
    intro x hx
    simpa using (List.mem_filter.1 hx).2
  refine ⟨labels, segmentLabels_length hc e1, ?_, ?_, ?_⟩
  · rw [e2]
    clear e1 e2
    unfold segmentNodes
    generalize stored.filter (fun x => decide (x.2 = s)) = xs at hx ⊢
    induction xs generalizing labels with
    | nil => simp
    | cons x xs ih =>
      cases labels with
      | nil => simp
      | cons l labels =>
        simp only [List.zip_cons_cons, List.map_cons, List.zipWith_cons_cons, List.cons.injEq, Node.mk.injEq, and_true]
        exact ⟨hx x (by simp), ih labels (fun y hy => hx y (by simp [hy]))⟩
  · intro hlen
    obtain ⟨x, hx1⟩ := List.length_eq_one_iff.1 hlen
    rw [hx1] at e1
    simp only [segmentLabels, Option.some.injEq] at e1
    exact e1.symm
  · intro hlen
    rcases hxs : stored.filter (fun x => decide (x.2 = s)) with _ | ⟨a, _ | ⟨b, l⟩⟩
    · rw [hxs] at hlen; simp at hlen
    · rw [hxs] at hlen; simp at hlen
    · have e1 : clu ((a :: b :: l).map coord) = some labels := by rw [hxs] at e1; exact e1
      rw [show stored.filter (fun x => decide (x.2 = s)) = a :: b :: l from hxs]
      exact e1

/-- C33 (crash): node estimation fails iff the clustering of some own segment with at least two intersections
fails. -/
theorem C33_crash_iff {clu : List X → Option (List Nat)} {coord : Inter → X} {p : Parameters}
    (hp : p.WellFormed) {own : Nat} (ho : own < p.nClusterNodes) {stored : List Inter} :
    estimateNodes clu coord p own stored = none ↔
      ∃ seg, p.rate / p.nClusterNodes * own ≤ seg ∧ seg < p.rate ∧
        2 ≤ (stored.filter (fun x => x.2 = seg)).length ∧
        clu ((stored.filter (fun x => x.2 = seg)).map coord) = none := by
  simp only [estimateNodes, startSegment_eq hp, Option.bind_eq_bind, Option.bind_some]
  have hlt := start_lt hp ho
  have key : ∀ (k seg : Nat) (nodes : List Node), p.rate - seg = k → seg < p.rate →
      (estimateLoop clu coord p.rate stored seg nodes = none ↔ ∃ s, seg ≤ s ∧ s < p.rate ∧
        2 ≤ (stored.filter (fun x => x.2 = s)).length ∧
        clu ((stored.filter (fun x => x.2 = s)).map coord) = none) := by
    intro k
    induction k with
    | zero => intro seg nodes hk hs; omega
    | succ k ih =>
      intro seg nodes hk hs
      rw [estimateLoop]
      have hlab : segmentLabels clu coord (stored.filter (fun x => x.2 = seg)) = none ↔
          (2 ≤ (stored.filter (fun x => x.2 = seg)).length ∧
            clu ((stored.filter (fun x => x.2 = seg)).map coord) = none) := by
        generalize stored.filter (fun x => decide (x.2 = seg)) = xs
        match xs with
        | [] => simp [segmentLabels]
        | [a] => simp [segmentLabels]
        | a :: b :: l => simp [segmentLabels]
      rcases hl : segmentLabels clu coord (stored.filter (fun x => x.2 = seg)) with _ | labels
      · have := hlab.1 hl
        simp only [Option.bind_eq_bind, Option.bind_none, true_iff]
        exact ⟨seg, le_refl _, hs, this⟩
      · simp only [Option.bind_eq_bind, Option.bind_some]
        have hno : ¬ (2 ≤ (stored.filter (fun x => x.2 = seg)).length ∧
            clu ((stored.filter (fun x => x.2 = seg)).map coord) = none) := by
          rw [← hlab, hl]; simp
        split
        · rename_i hlt'
          rw [ih (seg + 1) _ (by omega) hlt']
          constructor
          · rintro ⟨s, h1, h2, h3⟩
            exact ⟨s, by omega, h2, h3⟩
          · rintro ⟨s, h1, h2, h3⟩
            by_cases e : s = seg
            · subst e; exact absurd h3 hno
            · exact ⟨s, by omega, h2, h3⟩
        · rename_i hge
          refine iff_of_false (by simp) ?_
          rintro ⟨s, h1, h2, h3⟩
          have : s = seg := by omega
          subst this
          exact hno h3
  exact key _ _ _ rfl hlt

/-- The clustering of the code labels every intersection, so `C33_nodes` applies to it. -/
theorem kde_oneLabelEach {t resolution order dims : Nat} (ht : 1 ≤ t) (hr : 1 ≤ resolution) (ho : order ≤ resolution) :
    ∀ (data : List (List ℝ)) labels, (∀ row ∈ data, row.length = dims) → 2 ≤ data.length →
      (Kde.cluster t resolution order dims data).map Prod.fst = some labels → labels.length = data.length := by
  intro data labels hd h2 h
  rcases hc : Kde.cluster t resolution order dims data with _ | ⟨l, tb⟩
  · rw [hc] at h; cases h
  · rw [hc] at h
    simp only [Option.map_some, Option.some.injEq] at h
    rw [← h]
    exact (Kde.C38_crash_iff ht hr ho h2 hd).2 l tb hc

/-- C33 with C38, for the code's clustering: the stage crashes iff some own segment has at least two intersections
which agree in one of their distances. -/
theorem C33_kde_crash_iff {t resolution order dims : Nat} (ht : 1 ≤ t) (hr : 1 ≤ resolution) (hor : order ≤ resolution)
    {coord : Inter → List ℝ} (hd : ∀ x, (coord x).length = dims) {p : Parameters} (hp : p.WellFormed) {own : Nat}
    (ho : own < p.nClusterNodes) {stored : List Inter} :
    estimateNodes (fun data => (Kde.cluster t resolution order dims data).map Prod.fst) coord p own stored = none ↔
      ∃ seg, p.rate / p.nClusterNodes * own ≤ seg ∧ seg < p.rate ∧
        2 ≤ (stored.filter (fun x => x.2 = seg)).length ∧
        ∃ c < dims, ∀ x ∈ stored, ∀ y ∈ stored, x.2 = seg → y.2 = seg → (coord x)[c]? = (coord y)[c]? := by
  rw [C33_crash_iff hp ho]
  have hmem : ∀ seg c : Nat, (∀ a ∈ (stored.filter (fun x => x.2 = seg)).map coord,
      ∀ b ∈ (stored.filter (fun x => x.2 = seg)).map coord, a[c]? = b[c]?) ↔
      ∀ x ∈ stored, ∀ y ∈ stored, x.2 = seg → y.2 = seg → (coord x)[c]? = (coord y)[c]? := by
    intro seg c
    simp only [List.forall_mem_map, List.mem_filter, decide_eq_true_eq]
    constructor
    · intro h x hx y hy ex ey; exact h x ⟨hx, ex⟩ y ⟨hy, ey⟩
    · rintro h x ⟨hx, ex⟩ y ⟨hy, ey⟩; exact h x hx y hy ex ey
  have step : ∀ seg, 2 ≤ (stored.filter (fun x => x.2 = seg)).length →
      ((Kde.cluster t resolution order dims ((stored.filter (fun x => x.2 = seg)).map coord)).map Prod.fst = none ↔
        ∃ c < dims, ∀ x ∈ stored, ∀ y ∈ stored, x.2 = seg → y.2 = seg → (coord x)[c]? = (coord y)[c]?) := by
    intro seg h2
    rw [Option.map_eq_none_iff, (Kde.C38_crash_iff ht hr hor (by rw [List.length_map]; exact h2) (by
      intro row hrow
      obtain ⟨x, _, rfl⟩ := List.mem_map.1 hrow
      exact hd x)).1]
    simp only [hmem]
  constructor
  · rintro ⟨seg, h1, h2, h3, h4⟩
    exact ⟨seg, h1, h2, h3, (step seg h3).1 h4⟩
  · rintro ⟨seg, h1, h2, h3, h4⟩
    exact ⟨seg, h1, h2, h3, (step seg h3).2 h4⟩

/-! ### Concrete instance: node 0 of two, eight segments, clustering by equality -/

private def exClu (xs : List Nat) : Option (List Nat) := (Kde.extractLabels xs).map Prod.fst
private def exStored : List Inter := [(⟨⟨1, 7⟩, ⟨2, 1⟩⟩, 1), (⟨⟨1, 7⟩, ⟨2, 1⟩⟩, 0), (⟨⟨5, 0⟩, ⟨6, 2⟩⟩, 1), (⟨⟨5, 0⟩, ⟨6, 2⟩⟩, 2)]

example : estimateNodes exClu (fun x => x.1.src.id) SegNet.exP 0 exStored
    = some [⟨0, 0, 1⟩, ⟨1, 0, 1⟩, ⟨1, 1, 5⟩, ⟨2, 0, 5⟩] := by
  change estimateLoop _ _ 8 _ 0 [] = _
  iterate 8
    rw [estimateLoop]
    simp [exStored, segmentLabels, segmentNodes, exClu, Kde.extractLabels, Kde.labelStep]

example : ∀ x ∈ exStored, x.2 < SegNet.exP.rate ∧ SegNet.exP.segmentIdToAssignment x.2 = some 0 := by decide

end NodeEst
end S2G
