import Verif.Props.NanRun

/-!
# C93: how long a series has to be, and which parameters go together
-/

namespace S2G
namespace Whole

open Pca Rotation Points Pipeline Edges SegState NodeEst Scoring Weights

variable {e w : Nat} {X : Type}

/-! ### Specification -/

/-- Specification: a series of `n` rows has `n + 1 - pattern_length` points; windows of at least three entries, at least one point; the
chunks of `⌈points / n_threads⌉` rows are as many as the threads; and at least one position of the score vector for every thread. -/
structure Fits (n : Nat) (p : Parameters) : Prop where
  window : p.latent + 3 ≤ p.patternLength
  point : p.patternLength ≤ n
  query : 1 ≤ p.queryLength
  thread : 1 ≤ p.nThreads
  chunks : p.nThreads = 1 ∨ (p.nThreads - 1) * ((n + 1 - p.patternLength + (p.nThreads - 1)) / p.nThreads) < n + 1 - p.patternLength
  positions : p.nThreads + p.queryLength ≤ n + 1 - p.patternLength

/-- Specification: the run gets to the scoring, and from every state of the scoring it gets to the end, where it delivers one vector. -/
def Works (lib : Lib w) (clu : List X → Option (List Nat)) (coord : Inter → X) (p : Parameters) (series : List (Fin (e + 1) → ℝ)) : Prop :=
  (∃ R cs, CoordsN lib p series R cs) ∧ ∀ R cs, CoordsN lib p series R cs → ∃ pts mirrored s0, pointsN p.rate cs = some pts ∧
    pointsN p.rate (cs.map mirrorN) = some mirrored ∧
    localRun clu coord (fun a => (mirrored.find? (fun x => x.id = a.id)).getD a) p series.length pts = some s0 ∧
    ∀ s, ParScore.Reachable s0 s → ∃ s' v, ParScore.Reachable s s' ∧ delivered s' = [some v]

/-- What crashes because of the data (C40, C76) does not happen. -/
def NoDataCrash (lib : Lib w) (clu : List X → Option (List Nat)) (coord : Inter → X) (p : Parameters) (series : List (Fin (e + 1) → ℝ)) : Prop :=
  ∀ R cs pts mirrored, CoordsN lib p series R cs → pointsN p.rate cs = some pts → pointsN p.rate (cs.map mirrorN) = some mirrored →
    localEdges clu coord (fun a => (mirrored.find? (fun x => x.id = a.id)).getD a) p series.length pts ≠ none

/-! ### Up to the points -/

theorem chunked_iff {t n : Nat} (ht : 1 ≤ t) : Chunked t n ↔ t = 1 ∨ (t - 1) * ((n + (t - 1)) / t) < n := by
  have : divCeil n t = (n + (t - 1)) / t := by
    unfold divCeil
    rw [Nat.add_sub_assoc ht]
  unfold Chunked
  rw [this]
  constructor
  · rintro (h | h)
    · exact .inl (by omega)
    · exact .inr h
  · rintro (h | h)
    · exact .inl (by omega)
    · exact .inr h

/-- C93 (points): the run gets to the points exactly if there is a point, every thread of the PCA gets rows, and windows have at least three
entries. -/
theorem C93_points {lib : Lib w} {p : Parameters} (hw : p.patternLength = p.latent + (w + 1)) (hsvd : ∀ r, lib.svd r ≠ none ↔ 2 ≤ w)
    {series : List (Fin (e + 1) → ℝ)} :
    (∃ R cs, CoordsN lib p series R cs) ↔
      p.latent + 3 ≤ p.patternLength ∧ p.patternLength ≤ series.length ∧ Chunked p.nThreads (series.length + 1 - p.patternLength) := by
  have hw' : checkedSub p.patternLength p.latent = some (w + 1) := by
    unfold checkedSub
    rw [if_pos (by omega), hw]
    congr 1
    omega
  have hlen : ∀ m : Fin (e + 1), (windows w p series m).length = series.length + 1 - p.patternLength := by
    intro m
    unfold windows column
    simp
    omega
  rw [C77_reaches hw']
  constructor
  · intro h
    obtain ⟨comps, means, hne, x, vs, h1, h2, h3, h4⟩ := h 0
    have hl := hlen 0
    have hpos := List.length_pos_iff.2 hne
    have h5 := h1.chunked hne
    rw [hl] at h5
    have h6 := (hsvd _).1 (by rw [h2]; simp)
    exact ⟨by omega, by omega, h5⟩
  · rintro ⟨h1, h2, h3⟩ m
    have hl := hlen m
    have hne : windows w p series m ≠ [] := List.ne_nil_of_length_pos (by omega)
    rw [← hl] at h3
    obtain ⟨x, hx⟩ := exists_summarised lib hne h3
    obtain ⟨vs, hv⟩ := Option.ne_none_iff_exists'.1 ((hsvd (finalize lib.qr [(x.means, x.n)] x.r).r).2 (by omega))
    exact ⟨_, _, hne, x, vs, hx, hv, rfl, rfl⟩

/-! ### The scoring -/

theorem start_form {p : Parameters} {points : Nat} {es : List Edge} (hs : es.Pairwise (fun a b => a.toId ≤ b.toId))
    (hid : ∀ e ∈ es, e.toId + 1 < points) (hpts : 1 ≤ points) :
    startScores p points es = none ∧ (p.queryLength = 0 ∨ points < p.queryLength) ∨
    1 ≤ p.queryLength ∧ p.queryLength ≤ points ∧ ∃ run raw, startScores p points es = ParScore.init run (points - p.queryLength) p.nThreads ∧
      ∀ a b, a + b ≤ points - p.queryLength → run a b = some (ParScore.answer raw a b) := by
  have hr : EdgesInTime.resultLength 1 0 points = some (points - 1) := by
    simp only [EdgesInTime.resultLength, checkedSub, Nat.sub_self, if_true]
    rw [if_pos (by omega)]
  have hcount : ∃ eit, EdgesInTime.count 0 (points - 1) (es.map Edge.toId) = some eit ∧ eit.length = points - 1 ∧
      (1 ≤ p.queryLength → p.queryLength ≤ points → ∃ raw, ∀ a b, a + b ≤ points - p.queryLength →
        helper es eit (edgeWeight es) (nodeDegrees es) p.queryLength a b = some (ParScore.answer raw a b)) := by
    by_cases h0 : es.map Edge.toId = [] ∨ ∃ x ∈ es.map Edge.toId, x ≠ 0
    · refine ⟨_, EdgesInTime.C47_count (List.pairwise_map.2 hs) (fun _ _ => Nat.zero_le _) (by
        intro x hx
        obtain ⟨e, he, rfl⟩ := List.mem_map.1 hx
        have := hid e he
        omega) h0, by simp [EdgesInTime.spec], fun hq hle => ⟨fun i => rawSpec (edgeWeight es).val (nodeDegrees es).val
          (windowSpec es 0 p.queryLength i), fun a b hab => ?_⟩⟩
      rw [C48_scores hs (C48_known_local es) hq (by omega)]
      unfold ParScore.answer
      congr 2
      apply decide_eq_decide.2
      show _ ↔ 0 < b ∧ rawSpec _ _ _ = none
      unfold rawSpec
      split <;> simp_all
    · push Not at h0
      obtain ⟨hne, hz⟩ := h0
      obtain ⟨e, es', rfl⟩ : ∃ e es', es = e :: es' := by
        cases es with
        | nil => exact absurd rfl hne
        | cons e es' => exact ⟨e, es', rfl⟩
      exact ⟨List.replicate (points - 1) 0, EdgesInTime.C47_zero hne hz _, by simp, fun hq hle => ⟨_, fun a b hab => helper_zero (C48_known_local _) hq (by omega)⟩⟩
  obtain ⟨eit, h1, h2, h3⟩ := hcount
  unfold startScores
  rw [hr]
  simp only [Option.bind_eq_bind, Option.bind_some]
  rw [h1]
  simp only [Option.bind_some]
  by_cases hq : 1 ≤ p.queryLength ∧ p.queryLength ≤ points
  · right
    have hsc : scoreLength eit p.queryLength = some (points - p.queryLength) := by
      simp only [scoreLength, checkedSub, h2, Option.bind_eq_bind]
      rw [if_pos hq.1]
      simp only [Option.bind_some]
      rw [if_pos (by omega)]
      congr 1
      omega
    obtain ⟨raw, hraw⟩ := h3 hq.1 hq.2
    refine ⟨hq.1, hq.2, _, raw, ?_, hraw⟩
    rw [hsc]
    rfl
  · left
    have hsc : scoreLength eit p.queryLength = none := by
      simp only [scoreLength, checkedSub, h2, Option.bind_eq_bind]
      by_cases h0 : 1 ≤ p.queryLength
      · rw [if_pos h0]
        simp only [Option.bind_some]
        rw [if_neg (by omega)]
      · rw [if_neg h0]
        rfl
    rw [hsc]
    exact ⟨rfl, by omega⟩

/-- Without positions only an empty vector comes to the end. -/
theorem empty_final {s0 : ParScore} (h0 : s0.scores = [] ∧ (∀ m ∈ s0.pool, m.start = 0 ∧ m.scores = []) ∧ s0.final = [] ∧ s0.buffer = fun _ => none)
    {s : ParScore} (hr : ParScore.Reachable s0 s) :
    s.scores = [] ∧ (∀ m ∈ s.pool, m.start = 0 ∧ m.scores = []) ∧ (∀ f ∈ s.final, f.1 = []) ∧ s.buffer = fun _ => none := by
  induction hr with
  | init => exact ⟨h0.1, h0.2.1, by simp [h0.2.2.1], h0.2.2.2⟩
  | step _ hs ih =>
    obtain ⟨i1, i2, i3, i4⟩ := ih
    cases hs with
    | handle pre post m hp ht =>
      obtain ⟨hm0, hms⟩ := i2 m (by rw [hp]; simp)
      have hpool : ∀ x ∈ pre ++ post, x.start = 0 ∧ x.scores = [] := fun x hx => i2 x (by
        rw [hp]
        rcases List.mem_append.1 hx with h | h <;> simp [h])
      unfold ParScore.handle at ht
      simp only [i1, hm0, List.length_nil, ne_eq, not_true_eq_false, if_false, Option.bind_eq_bind] at ht
      obtain ⟨proto, hpr, ht⟩ := Option.bind_eq_some_iff.1 ht
      have hfill : ∀ b, (ParScore.fill [] b m).1 = [] := by
        intro b
        unfold ParScore.fill
        split <;> simp [hms]
      simp only [hfill, List.append_nil, List.length_nil, i4] at ht
      split at ht
      · cases ht
        refine ⟨rfl, hpool, ?_, rfl⟩
        intro f hf
        rcases List.mem_append.1 hf with h | h
        · exact i3 f h
        · rw [List.mem_singleton.1 h]
      · cases ht
        exact ⟨rfl, hpool, i3, rfl⟩

theorem reach_trans {a b c : ParScore} (h : ParScore.Reachable a b) (h' : ParScore.Reachable b c) : ParScore.Reachable a c := by
  induction h' with
  | init => exact h
  | step _ hs ih => exact .step ih hs

theorem stuck {s s' : ParScore} (hp : s.pool = []) (h : ParScore.Reachable s s') : s' = s := by
  induction h with
  | init => rfl
  | step _ hs ih =>
    subst ih
    cases hs with
    | handle pre post m h ht => rw [hp] at h; simp at h

/-- C93 (scores): the scoring delivers one vector in every schedule exactly if there is a position for every thread. -/
theorem C93_scores {p : Parameters} {points : Nat} {es : List Edge} (hs : es.Pairwise (fun a b => a.toId ≤ b.toId))
    (hid : ∀ e ∈ es, e.toId + 1 < points) (hpts : 1 ≤ points) :
    (∃ s0, startScores p points es = some s0 ∧ ∀ s, ParScore.Reachable s0 s → ∃ s' v, ParScore.Reachable s s' ∧ delivered s' = [some v]) ↔
      1 ≤ p.queryLength ∧ 1 ≤ p.nThreads ∧ p.nThreads + p.queryLength ≤ points := by
  constructor
  · rintro ⟨s0, h0, h1⟩
    rcases start_form (p := p) hs hid hpts with ⟨h2, _⟩ | ⟨hq, hle, run, raw, h2, hrun⟩
    · rw [h2] at h0; cases h0
    rw [h2] at h0
    rcases Nat.eq_zero_or_pos p.nThreads with ht | ht
    · rw [ht, ParScore.C49_zero_threads] at h0; cases h0
    refine ⟨hq, ht, ?_⟩
    by_contra hlt
    rcases Nat.eq_zero_or_pos (points - p.queryLength) with hz | hz
    · rw [hz] at h0 hrun
      rw [ParScore.init_eq ht hrun] at h0
      obtain rfl := Option.some.inj h0
      obtain ⟨s', v, hr, hd⟩ := h1 _ .init
      have := (empty_final ⟨rfl, by
        intro m hm
        obtain ⟨i, _, rfl⟩ := List.mem_map.1 hm
        obtain ⟨g1, g2⟩ := ParScore.answers_small raw (by omega : 0 < p.nThreads) i
        exact ⟨g1, List.length_eq_zero_iff.1 (by rw [g2]; simp)⟩, rfl, rfl⟩ hr).2.2.1
      unfold delivered at hd
      cases hf : s'.final with
      | nil => rw [hf] at hd; cases hd
      | cons f l =>
        rw [hf, List.map_cons, this f (by rw [hf]; simp)] at hd
        have := (List.cons.inj hd).1
        rw [(C52_degenerate []).1.2 rfl] at this
        cases this
    · obtain ⟨s0', s, g1, g2, g3, g4⟩ := ParScore.C49_hang (t := p.nThreads) (by omega) hz hrun
      cases Option.some.inj (h0.symm.trans g1)
      obtain ⟨s', v, hr, hd⟩ := h1 s g2
      rw [stuck g3 hr, delivered, g4] at hd
      cases hd
  · rintro ⟨hq, ht, hsl⟩
    obtain ⟨s0, h1, h2⟩ := C64_scores hs hid hq ht hsl
    refine ⟨s0, h1, fun s hr => ?_⟩
    have hv : normalize (vector es p.queryLength (points - p.queryLength)) ≠ none := by
      rw [Ne, (C52_degenerate _).1]
      intro h
      have := congrArg List.length h
      simp only [vector, carrySpec, List.length_map, List.length_range, List.length_nil] at this
      omega
    obtain ⟨v, hv⟩ := Option.ne_none_iff_exists'.1 hv
    obtain ⟨s', hs', hd⟩ := exists_delivered (k := p.nThreads) (s0 := s) (fun u hu => (h2 u (reach_trans hr hu)).2)
    exact ⟨s', v, hs', by rw [hd, hv]⟩

/-! ### The whole run -/

theorem segmentN_lt {rate : Nat} (hr : 0 < rate) {c : List (Option ℝ)} (h : 2 ≤ c.length) : ∃ s < rate, segmentN rate c = some s := by
  unfold segmentN
  rw [List.getElem?_eq_getElem (by omega), List.getElem?_eq_getElem (by omega)]
  simp only [Option.bind_eq_bind, Option.bind_some]
  have hmod : ∀ a, checkedMod a rate = some (a % rate) := fun a => by simp [checkedMod, hr.ne']
  split
  · unfold SegmentId.pointSegment SegmentId.getSegmentId
    exact ⟨_, Nat.mod_lt _ hr, hmod _⟩
  · exact ⟨_, Nat.mod_lt _ hr, hmod _⟩

theorem pointsN_spec {rate : Nat} (hr : 0 < rate) {cs : List (List (Option ℝ))} (h : ∀ c ∈ cs, 2 ≤ c.length) :
    ∃ pts, pointsN rate cs = some pts ∧ pts.length = cs.length ∧ pts.map Pt.id = List.range pts.length ∧ ∀ x ∈ pts, x.seg < rate := by
  have : ∃ segs, cs.mapM (segmentN rate) = some segs ∧ segs.length = cs.length ∧ ∀ s ∈ segs, s < rate := by
    induction cs with
    | nil => exact ⟨[], rfl, rfl, by simp⟩
    | cons c cs ih =>
      obtain ⟨s, h1, h2⟩ := segmentN_lt hr (h c (by simp))
      obtain ⟨segs, h3, h4, h5⟩ := ih (fun c hc => h c (by simp [hc]))
      refine ⟨s :: segs, ?_, by simp [h4], by simpa using ⟨h1, h5⟩⟩
      rw [List.mapM_cons, h2, h3]
      rfl
  obtain ⟨segs, h1, h2, h3⟩ := this
  unfold pointsN
  rw [h1]
  refine ⟨_, rfl, by simp [h2], ?_, ?_⟩
  · apply List.ext_getElem
    · simp
    · intro i _ _
      simp
  · intro x hx
    obtain ⟨i, hi, rfl⟩ := List.mem_iff_getElem.1 hx
    rw [List.getElem_zipWith]
    exact h3 _ (List.getElem_mem _)

theorem find_spec {ms : List Pt} {rate : Nat} (h : ∀ x ∈ ms, x.seg < rate) (a : Pt) :
    ((ms.find? (fun x => x.id = a.id)).getD a).id = a.id ∧ (a.seg < rate → ((ms.find? (fun x => x.id = a.id)).getD a).seg < rate) := by
  cases hf : ms.find? (fun x => x.id = a.id) with
  | none => exact ⟨rfl, id⟩
  | some x => exact ⟨by simpa using List.find?_some hf, fun _ => h x (List.mem_of_find?_eq_some hf)⟩

theorem edges_good {clu : List X → Option (List Nat)} (hc : OneLabelEach clu) (coord : Inter → X) {mirror : Pt → Pt}
    {p : Parameters} (hp : p.WellFormed) (hn : p.nClusterNodes = 1) {len : Nat} {pts : List Pt}
    (hm : ∀ a, (mirror a).id = a.id ∧ (a.seg < p.rate → (mirror a).seg < p.rate))
    (hid : pts.map Pt.id = List.range pts.length) (hseg : ∀ x ∈ pts, x.seg < p.rate) (hlen : pts.length ≤ len) {es : List Edge}
    (hes : localEdges clu coord mirror p len pts = some es) :
    es.Pairwise (fun a b => a.toId ≤ b.toId) ∧ ∀ e ∈ es, e.toId + 1 < pts.length := by
  have heid : (effective p mirror pts).map Pt.id = List.range (effective p mirror pts).length ∧
      (effective p mirror pts).length = pts.length ∧ ∀ x ∈ effective p mirror pts, x.seg < p.rate := by
    unfold effective
    split
    · refine ⟨?_, by simp, ?_⟩
      · rw [List.length_map, ← hid, List.map_map]
        apply List.map_congr_left
        intro a _
        exact (hm a).1
      · intro x hx
        obtain ⟨a, ha, rfl⟩ := List.mem_map.1 hx
        exact (hm a).2 (hseg a ha)
    · exact ⟨hid, rfl, hseg⟩
  obtain ⟨e1, e2, e3⟩ := heid
  obtain ⟨n1, n2⟩ := numbered e1
  rw [e2] at n2
  obtain ⟨lab, hlab, rfl⟩ := (C64_graph hc coord mirror hp hn (len := len) e3 n1 (fun x hx => by have := n2 x hx; omega)).2 es hes
  have hst := steps_of_points (rate := p.rate) e3 n1 (fun x hx => n2 x hx)
  refine ⟨pairs_sorted (walk_sorted hst.sorted), ?_⟩
  intro e he
  obtain ⟨t, ht, he⟩ := toId_walk he
  have hmem := (List.mem_filter.1 ht).1
  have := steps_lt n1 t hmem
  have := n2 _ (mem_steps hmem).2
  omega

theorem points_good {lib : Lib w} {clu : List X → Option (List Nat)} (hc : OneLabelEach clu) (coord : Inter → X) {p : Parameters}
    (hp : p.WellFormed) (hn : p.nClusterNodes = 1) {series : List (Fin (e + 1) → ℝ)} {R : Fin (e + 1) → Option (Matrix (Fin 3) (Fin 3) ℝ)}
    {cs : List (List (Option ℝ))} (hcs : CoordsN lib p series R cs) : ∃ pts mirrored, pointsN p.rate cs = some pts ∧
      pointsN p.rate (cs.map mirrorN) = some mirrored ∧ pts.length = series.length + 1 - p.patternLength ∧
      ∀ es, localEdges clu coord (fun a => (mirrored.find? (fun x => x.id = a.id)).getD a) p series.length pts = some es →
        es.Pairwise (fun a b => a.toId ≤ b.toId) ∧ ∀ e ∈ es, e.toId + 1 < pts.length := by
  have hr : 0 < p.rate := by have := hp.1; have := hp.2; omega
  obtain ⟨hl, hpl, hrow⟩ := hcs.length
  have hrow2 : ∀ c ∈ cs, 2 ≤ c.length := by
    intro c hc
    obtain ⟨row, rfl⟩ := hrow c hc
    unfold coordinatesN
    simp
    omega
  obtain ⟨pts, h1, h2, h3, h4⟩ := pointsN_spec hr hrow2
  obtain ⟨ms, g1, g2, g3, g4⟩ := pointsN_spec hr (cs := cs.map mirrorN) (by
    intro c hc
    obtain ⟨c', hc', rfl⟩ := List.mem_map.1 hc
    have := hrow2 c' hc'
    cases c' with
    | nil => simp at this
    | cons a l => simpa [mirrorN] using this)
  exact ⟨pts, ms, h1, g1, by omega, fun es hes => edges_good hc coord hp hn (find_spec g4) h3 h4 (by omega) hes⟩

/-- C93 (necessary): if a run on one node works, the length of the series and the parameters fit together. -/
theorem C93_needed {lib : Lib w} {clu : List X → Option (List Nat)} (hc : OneLabelEach clu) (coord : Inter → X) {p : Parameters}
    (hp : p.WellFormed) (hn : p.nClusterNodes = 1) (hw : p.patternLength = p.latent + (w + 1)) (hsvd : ∀ r, lib.svd r ≠ none ↔ 2 ≤ w)
    {series : List (Fin (e + 1) → ℝ)} (h : Works lib clu coord p series) : Fits series.length p := by
  obtain ⟨⟨R, cs, hcs⟩, h⟩ := h
  obtain ⟨a1, a2, a3⟩ := (C93_points hw hsvd).1 ⟨R, cs, hcs⟩
  obtain ⟨pts, ms, h1, h2, h4, h5⟩ := points_good hc coord hp hn hcs
  obtain ⟨pts', ms', s0, g1, g2, g3, g4⟩ := h R cs hcs
  cases Option.some.inj (h1.symm.trans g1)
  cases Option.some.inj (h2.symm.trans g2)
  unfold localRun at g3
  obtain ⟨es, h3, g3⟩ := Option.bind_eq_some_iff.1 g3
  obtain ⟨h5, h6⟩ := h5 es h3
  obtain ⟨b1, b2, b3⟩ := (C93_scores h5 h6 (by omega)).1 ⟨s0, g3, g4⟩
  rw [h4] at b3
  exact ⟨a1, a2, b1, b2, (chunked_iff b2).1 a3, b3⟩

/-- C93: unless the data make it crash, a run on one node works exactly if the length of the series and the parameters fit together. -/
theorem C93_works {lib : Lib w} {clu : List X → Option (List Nat)} (hc : OneLabelEach clu) (coord : Inter → X) {p : Parameters}
    (hp : p.WellFormed) (hn : p.nClusterNodes = 1) (hw : p.patternLength = p.latent + (w + 1)) (hsvd : ∀ r, lib.svd r ≠ none ↔ 2 ≤ w)
    {series : List (Fin (e + 1) → ℝ)} (hd : NoDataCrash lib clu coord p series) :
    Works lib clu coord p series ↔ Fits series.length p := by
  refine ⟨C93_needed hc coord hp hn hw hsvd, ?_⟩
  rintro ⟨a1, a2, b1, b2, a3, b3⟩
  refine ⟨(C93_points hw hsvd).2 ⟨a1, a2, (chunked_iff b2).2 a3⟩, fun R cs hcs => ?_⟩
  obtain ⟨pts, ms, h1, h2, h4, h5⟩ := points_good hc coord hp hn hcs
  obtain ⟨es, h3⟩ := Option.ne_none_iff_exists'.1 (hd R cs pts ms hcs h1 h2)
  obtain ⟨h5, h6⟩ := h5 es h3
  obtain ⟨s0, g3, g4⟩ := (C93_scores (p := p) h5 h6 (by omega)).2 ⟨b1, b2, by rw [h4]; exact b3⟩
  refine ⟨pts, ms, s0, h1, h2, ?_, g4⟩
  unfold localRun
  rw [h3]
  exact g3

/-- C93: windows which are not longer than `latent` are a crash. -/
theorem C93_no_window {lib : Lib w} {clu : List X → Option (List Nat)} {coord : Inter → X} {p : Parameters} (h : p.patternLength ≤ p.latent)
    (series : List (Fin (e + 1) → ℝ)) : ¬ Works lib clu coord p series := by
  rintro ⟨⟨R, cs, lo, hi, ps, ref, comps, means, first, hmm, hw, _⟩, _⟩
  obtain ⟨_, hw'⟩ := checkedSub_some hw
  omega

/-- C93: as soon as there are enough positions, only a number of threads of which the square is about as large as the number of points or larger
can be a problem. -/
theorem C93_enough {n : Nat} {p : Parameters} (h1 : p.latent + 3 ≤ p.patternLength) (h2 : 1 ≤ p.queryLength) (h3 : 1 ≤ p.nThreads)
    (h4 : p.nThreads + p.queryLength + p.patternLength ≤ n + 1) (h5 : (p.nThreads - 1) * (p.nThreads - 1) + p.patternLength ≤ n) : Fits n p := by
  refine ⟨h1, by omega, h2, h3, .inr ?_, by omega⟩
  obtain ⟨k, hk⟩ : ∃ k, p.nThreads = k + 1 := ⟨p.nThreads - 1, by omega⟩
  rw [hk] at h5 ⊢
  simp only [Nat.add_sub_cancel] at h5 ⊢
  set m := n + 1 - p.patternLength with hm
  have h6 : k * k < m := by omega
  have h7 := Nat.div_mul_le_self (m + k) (k + 1)
  set c := (m + k) / (k + 1) with hc
  by_contra hlt
  push Not at hlt
  nlinarith

/-- C93: the defaults of the command line (pattern length 50, latent 16, query length 75, 8 threads): 132 rows; with the one thread of
`Parameters::default`: 125. -/
theorem C93_defaults {n : Nat} {p : Parameters} (h1 : p.patternLength = 50) (h2 : p.latent = 16) (h3 : p.queryLength = 75) :
    (p.nThreads = 8 → (Fits n p ↔ 132 ≤ n)) ∧ (p.nThreads = 1 → (Fits n p ↔ 125 ≤ n)) := by
  refine ⟨fun ht => ⟨fun h => ?_, fun h => ⟨by omega, by omega, by omega, by omega, ?_, by omega⟩⟩,
    fun ht => ⟨fun h => ?_, fun h => ⟨by omega, by omega, by omega, by omega, .inl ht, by omega⟩⟩⟩
  · have := h.positions; omega
  · rw [ht, h1]; omega
  · have := h.positions; omega

/-! ### Concrete instances -/

private def exLib : Lib 2 := ⟨id, fun _ => some [fun _ => 1, fun _ => 2, fun _ => 3]⟩

private def exPar (t : Nat) : Parameters := ⟨4, 1, 2, 8, t, 1, false⟩

private def exSeries (n : Nat) : List (Fin 1 → ℝ) := List.replicate n (fun _ => 5)

private def exClu : List Nat → Option (List Nat) := fun xs => some (xs.map (fun _ => 0))

-- a constant series: no crash which depends on the data
private theorem ex_noCrash (t n : Nat) : NoDataCrash exLib exClu (fun _ => 0) (exPar t) (exSeries n) := by
  intro R cs pts ms hcs h1 h2 hes
  have hR := C77_constant (fun A => rfl) hcs (m := 0) (c := 5) (fun x hx => by rw [List.eq_of_mem_replicate hx])
  obtain ⟨hl, hpl, hrow⟩ := hcs.length
  have hall := pointsN_all (rate := 8) (cs := cs) (s := 0) (fun c hc => by
    obtain ⟨row, rfl⟩ := hrow c hc
    exact (segmentN_nan (m := 0) (by simp [Decides]) hR (by omega) row).1)
  cases Option.some.inj (h1.symm.trans hall)
  have hcross : validSteps 8 ((List.range cs.length).map (fun i => (⟨i, 0⟩ : Pt))) = [] := by
    unfold validSteps
    rw [List.filter_eq_nil_iff]
    intro t ht
    simp [Trans.isValid, steps_const (f := fun i => ⟨i, 0⟩) (fun _ => rfl) _ t ht]
  have heff : effective (exPar t) (fun a => (ms.find? (fun x => x.id = a.id)).getD a) ((List.range cs.length).map (fun i => (⟨i, 0⟩ : Pt))) =
      (List.range cs.length).map (fun i => ⟨i, 0⟩) := by
    unfold effective
    rw [if_neg (by simp [exPar])]
  have := (C64_graph (clu := exClu) (fun xs l _ h => by cases h; simp) (fun _ => 0) (fun a => (ms.find? (fun x => x.id = a.id)).getD a)
    (p := exPar t) (by constructor <;> simp [exPar]) rfl (len := (exSeries n).length) (pts := (List.range cs.length).map (fun i => ⟨i, 0⟩))
    (by rw [heff]; simp [exPar]) (by rw [heff, List.pairwise_map]; exact List.pairwise_lt_range)
    (by
      rw [heff]
      intro x hx
      obtain ⟨i, hi, rfl⟩ := List.mem_map.1 hx
      rw [List.mem_range, hl] at hi
      show i < _
      omega)).1.1 hes
  rw [heff] at this
  rcases this with ⟨s, _, h3, _⟩ | ⟨t, h3, _⟩
  · rw [show (exPar t).rate = 8 from rfl, hcross] at h3
    simp [crossings] at h3
  · rw [show (exPar _).rate = 8 from rfl, hcross] at h3
    simp at h3

-- two threads: 7 rows are enough, 6 are not
example : Works exLib exClu (fun _ => 0) (exPar 2) (exSeries 7) ∧ ¬ Works exLib exClu (fun _ => 0) (exPar 2) (exSeries 6) := by
  have h : ∀ n, Works exLib exClu (fun _ => 0) (exPar 2) (exSeries n) ↔ Fits n (exPar 2) := fun n => by
    have := C93_works (lib := exLib) (clu := exClu) (fun xs l _ h => by cases h; simp) (fun _ => 0) (p := exPar 2)
      (by constructor <;> simp [exPar]) rfl rfl (fun r => by simp [exLib]) (ex_noCrash 2 n)
    rwa [show (exSeries n).length = n by simp [exSeries]] at this
  rw [h, h]
  refine ⟨C93_enough (by decide) (by decide) (by decide) (by decide) (by decide), fun h => absurd h.positions (by decide)⟩

-- 8 threads and query length 1: 12 rows give 9 points and a position for every thread, but not every thread of the PCA gets rows; more rows
-- can make it better or worse
example : ¬ Fits 12 ⟨4, 1, 1, 8, 8, 1, false⟩ ∧ Fits 25 ⟨4, 1, 1, 8, 8, 1, false⟩ ∧ Fits 18 ⟨4, 1, 1, 8, 8, 1, false⟩ ∧
    ¬ Fits 20 ⟨4, 1, 1, 8, 8, 1, false⟩ := by
  refine ⟨fun h => absurd h.chunks (by decide), ?_, ?_, fun h => absurd h.chunks (by decide)⟩ <;>
  exact ⟨by decide, by decide, by decide, by decide, by decide, by decide⟩

end Whole
end S2G
