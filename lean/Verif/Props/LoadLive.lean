import Verif.Props.LoadNet
import Verif.Props.StageLive
import Mathlib.Algebra.BigOperators.Group.Finset.Basic

/-!
# C87: the data managers of a cluster, in any schedule

Nobody panics, nobody waits for ever, and what is handed over to `Training` does not depend on the order of the messages.
-/

namespace S2G
namespace LoadNet
open LoadMsg Stage Manager Cluster Whole

variable {e : Nat} {p : Parameters} {s : LoadNet e} {i : Nat} {parts : Nat → List (Fin (e + 1) → ℝ)} {series : List (Fin (e + 1) → ℝ)}

/-- What the code needs of the data: every node has rows, more than the overlap and at least a window, and the reference data set exists. -/
structure Feasible (p : Parameters) (parts : Nat → List (Fin (e + 1) → ℝ)) : Prop where
  pos : 0 < p.nClusterNodes
  rows : ∀ i < p.nClusterNodes, parts i ≠ []
  std : ∀ i < p.nClusterNodes, ∃ x : Stats.StdMsg (e + 1) ℝ Nat, Stats.calculateStd (cutoff p i) (parts i) i = some x ∧ x.n ≠ 0
  reference : (PhaseSpace.referenceDataset p (lowest ((List.range p.nClusterNodes).flatMap parts))
    (highest ((List.range p.nClusterNodes).flatMap parts))).isSome
  space : ∀ i < p.nClusterNodes, (PhaseSpace.build p (parts i)).isSome

theorem Flow.has_data (h : Flow p s) {j : Nat} (hj : (mmNodes s).length = p.nClusterNodes ∨ (sdNodes s).length = p.nClusterNodes)
    (hlt : j < p.nClusterNodes) : (s.mgr j).data.isSome = true := by
  have key : ∀ l : List Nat, (∀ a, l.count a ≤ (s.mgr a).data.isSome.toNat) → l.length = p.nClusterNodes → (s.mgr j).data.isSome = true := by
    intro l h1 h2
    have h3 := (count_nodes fun a => (h1 a).trans (h.bound a)).2 h2 j
    rw [if_pos hlt] at h3
    have h4 := h1 j
    rw [h3] at h4
    cases hd : (s.mgr j).data.isSome with
    | true => rfl
    | false => rw [hd] at h4; simp at h4
  rcases hj with hj | hj
  · exact key _ (fun a => by have := h.mm a; omega) hj
  · exact key _ (fun a => by have := h.sd a; omega) hj

theorem Flow.data_lt (h : Flow p s) {j : Nat} {r : List (Fin (e + 1) → ℝ)} (hd : (s.mgr j).data = some r) :
    (s.mgr 0).loaded = true ∧ j < p.nClusterNodes := by
  have h1 := h.part j
  rw [hd] at h1
  by_contra hc
  rw [if_neg hc] at h1
  simp at h1

/-- A handler whose message is the first of its mailbox does not panic. -/
theorem handle_some (h : Inv p parts s) (hf : Feasible p parts) {m : LoadMsg e} {rest : List (LoadMsg e)} (hm : s.mailbox i = m :: rest) :
    ∃ f, (s.mgr i).handle p i m = some f := by
  have hw : s.Waits i m := .inl (by rw [hm]; simp)
  have h0 : (s.mgr 0).loaded = true := by
    by_contra hc
    rw [((h.quiet (by simpa using hc)).2.1 i)] at hm
    cases hm
  have hfin : ∀ x, (s.mgr i).data.isSome = true → ∃ f, (s.mgr i).finished p x = some f := by
    intro x hd
    obtain ⟨r, hr⟩ := Option.isSome_iff_exists.1 hd
    unfold Manager.finished
    simp only [hr, Option.bind_some, Preproc.start_eq, Option.map_some]
    split <;> exact ⟨_, rfl⟩
  cases m with
  | partition r =>
    obtain rfl : r = parts i := h.msgs i _ hw
    obtain ⟨-, h2, -⟩ := h.flow.here hw
    obtain ⟨x, h3, h4⟩ := hf.std i h2
    simp only [Manager.handle]
    split
    · rw [if_neg (hf.rows i h2), h3]
      simp only [Option.bind_some]
      rw [if_neg h4]
      exact ⟨_, rfl⟩
    · exact ⟨_, rfl⟩
  | minMax x =>
    have hi : i = 0 := by
      by_contra hi
      have h1 := h.flow.mm0 i hi x.source
      have h2 := hw.pend (f := isMM x.source) (by simp [isMM])
      omega
    subst hi
    have hd : (s.mgr 0).data ≠ none := by
      intro hd
      obtain ⟨r, rest', hr⟩ := h.flow.first h0 hd
      rw [hm] at hr
      cases hr
    have h1 := h.flow.mmSome 0
    rw [Option.isSome_iff_ne_none.2 hd] at h1
    obtain ⟨c, hc⟩ := Option.isSome_iff_exists.1 h1
    simp only [Manager.handle, hc]
    exact ⟨_, rfl⟩
  | std x =>
    have hi : i = 0 := by
      by_contra hi
      have h1 := h.flow.sd0 i hi x.source
      have h2 := hw.pend (f := isSD x.source) (by simp [isSD])
      omega
    subst hi
    have hd : (s.mgr 0).data ≠ none := by
      intro hd
      obtain ⟨r, rest', hr⟩ := h.flow.first h0 hd
      rw [hm] at hr
      cases hr
    have h1 := h.flow.sdSome 0
    rw [Option.isSome_iff_ne_none.2 hd] at h1
    obtain ⟨c, hc⟩ := Option.isSome_iff_exists.1 h1
    simp only [Manager.handle, hc]
    exact ⟨_, rfl⟩
  | minMaxDone a b =>
    have h1 := h.flow.mmDone i
    have h2 := hw.pend (f := isMMDone) rfl
    refine hfin _ ?_
    by_cases hc : (mmNodes s).length = p.nClusterNodes ∧ i < p.nClusterNodes
    · exact h.flow.has_data (.inl hc.1) hc.2
    · rw [if_neg hc] at h1; omega
  | stdDone a b =>
    have h1 := h.flow.sdDone i
    have h2 := hw.pend (f := isSDDone) rfl
    refine hfin _ ?_
    by_cases hc : (sdNodes s).length = p.nClusterNodes ∧ i < p.nClusterNodes
    · exact h.flow.has_data (.inr hc.1) hc.2
    · rw [if_neg hc] at h1; omega
  | processed c =>
    have h2 := hw.pend (f := isProc) rfl
    obtain ⟨g1, g2, g3, g4, g5, g6⟩ | ⟨q, r, fl, ans, g1, g2, g3, g4, g5, g6⟩ := h.pre i
    · omega
    · have hne : fl ≠ [] := by
        rintro rfl
        simp at g5
        omega
      obtain ⟨c', fl', rfl⟩ := List.exists_cons_of_ne_nil hne
      have hd := Preproc.handle_ok g4 (c := c') (by simp) ([] : List ℝ)
      have hd' : ∃ q', Preproc.handleProcessed p.nThreads q c ([] : List ℝ) = some q' := ⟨_, hd⟩
      obtain ⟨q', hq'⟩ := hd'
      simp only [Manager.handle, g1, Option.bind_some, hq', Option.map_some]
      exact ⟨_, rfl⟩
  | preprocessingDone =>
    have h2 := hw.pend (f := isEnd) rfl
    obtain ⟨g1, g2, g3, g4, g5, g6⟩ | ⟨q, r, fl, ans, g1, g2, g3, g4, g5, g6⟩ := h.pre i
    · omega
    · have hlt := (h.flow.data_lt g3).2
      have k1 := h.flow.maxSome i
      have k2 := h.flow.nSome i
      simp only [Stats.isDone, Bool.and_eq_true] at g2
      obtain ⟨lo, hlo⟩ := Option.isSome_iff_exists.1 (show (s.mgr i).stats.min.isSome = true by simp_all)
      obtain ⟨hi, hhi⟩ := Option.isSome_iff_exists.1 (show (s.mgr i).stats.max.isSome = true by simp_all)
      obtain ⟨n, hn⟩ := Option.isSome_iff_exists.1 (show (s.mgr i).stats.n.isSome = true by simp_all)
      obtain ⟨ref, href⟩ := Option.isSome_iff_exists.1 hf.reference
      obtain ⟨ps, hps⟩ := Option.isSome_iff_exists.1 (hf.space i hlt)
      have e1 := (h.mgrs i).min lo hlo
      have e2 := (h.mgrs i).max hi hhi
      have e4 := (h.mgrs i).data r g3
      refine ⟨{ mgr := { s.mgr i with handed := (s.mgr i).handed ++ [(ref, ps, n)] } }, ?_⟩
      simp only [Manager.handle, Option.bind_eq_bind, Option.bind_eq_some_iff]
      exact ⟨lo, hlo, hi, hhi, n, hn, r, g3, ref, by rw [e1, e2]; exact href, ps, by rw [e4]; exact hps, rfl⟩

/-- **C87 (no panic).** In every state of every run of the data managers, every node can handle the first message of its mailbox: the main node has its own
rows before it gets the statistics of a peer, and all nodes have their rows before the main node answers. -/
theorem C87_no_panic (hr : DataReader.readCsv p.nClusterNodes (p.patternLength - 1) series = some ((List.range p.nClusterNodes).map fun j => (j, parts j)))
    (hf : Feasible p parts) {f : Nat → Unit} {s : (loading p series).S} (hs : (loading p series).Run f s) {i : Nat} {m : LoadMsg e}
    {rest : List (LoadMsg e)} (hm : LoadNet.mailbox s i = m :: rest) : ∃ g, (LoadNet.mgr s i).handle p i m = some g :=
  handle_some (inv_run hr hs) hf hm

/-! ### The result -/

theorem loading_out {s : LoadNet e} {y : List (List (Fin (e + 1) → ℝ)) × List (List (Fin (e + 1) → ℝ)) × Nat} :
    (loading p series).out s i = some y ↔ i < p.nClusterNodes ∧ (s.mgr i).handed = [y] := by
  show (match (s.mgr i).handed with
    | [y] => if i < p.nClusterNodes then some y else none
    | _ => none) = some y ↔ _
  rcases h : (s.mgr i).handed with _ | ⟨m, _ | ⟨m', l⟩⟩
  · simp
  · by_cases hi : i < p.nClusterNodes <;> simp [hi]
  · simp

theorem handed_le (h : Inv p parts s) : (s.mgr i).handed.length ≤ 1 := by
  obtain ⟨g1, g2, g3, g4, g5, g6⟩ | ⟨q, r, fl, ans, g1, g2, g3, g4, g5, g6⟩ := h.pre i
  · rw [g6]; simp
  · have h1 := g4.done_eq
    simp only at h1
    split at h1 <;> omega

/-- **C87 (what is handed over).** Whatever the order of the messages, a node hands its data over to `Training` at most once: the phase space of its rows, the reference
data set of the minima and maxima of all rows of all nodes, and the number of rows which the nodes count. -/
theorem C87_exact (hr : DataReader.readCsv p.nClusterNodes (p.patternLength - 1) series = some ((List.range p.nClusterNodes).map fun j => (j, parts j)))
    {f : Nat → Unit} {s : (loading p series).S} (hs : (loading p series).Run f s) (i : Nat) :
    (LoadNet.mgr s i).handed.length ≤ 1 ∧ ∀ ref ps n, (loading p series).out s i = some (ref, ps, n) →
      PhaseSpace.build p (parts i) = some ps ∧
      PhaseSpace.referenceDataset p (lowest ((List.range p.nClusterNodes).flatMap parts)) (highest ((List.range p.nClusterNodes).flatMap parts)) = some ref ∧
      n = ((List.range p.nClusterNodes).map (size p parts)).sum := by
  have h := inv_run hr hs
  refine ⟨handed_le h, fun ref ps n hy => ?_⟩
  obtain ⟨h1, h2⟩ := loading_out.1 hy
  obtain ⟨h3, h4, h5⟩ := (h.mgrs i).handed (ref, ps, n) (by rw [h2]; simp)
  exact ⟨h4, h3, h5⟩

/-! ### A stage -/

theorem handed_handle {j : Nat} {m : Manager e} {x : LoadMsg e} {f : Effect e} (h : m.handle p j x = some f) :
    m.handed <+: f.mgr.handed ∧ (f.mgr.data.isSome = true → m.data.isSome = true ∨ m.connected p = true) := by
  cases x with
  | partition r =>
    simp only [Manager.handle] at h
    split at h
    · next hc =>
      split at h
      · cases h
      · obtain ⟨y, hy, h⟩ := Option.bind_eq_some_iff.1 h
        split at h
        · cases h
        · cases h; exact ⟨List.prefix_rfl, fun _ => .inr hc⟩
    · cases h; exact ⟨List.prefix_rfl, fun h => .inl h⟩
  | minMax y =>
    simp only [Manager.handle] at h
    obtain ⟨c, hc, rfl⟩ := Option.map_eq_some_iff.1 h
    exact ⟨List.prefix_rfl, fun h => .inl h⟩
  | std y =>
    simp only [Manager.handle] at h
    obtain ⟨c, hc, rfl⟩ := Option.map_eq_some_iff.1 h
    exact ⟨List.prefix_rfl, fun h => .inl h⟩
  | minMaxDone u v =>
    simp only [Manager.handle, Manager.finished] at h
    split at h
    · obtain ⟨r, -, h⟩ := Option.bind_eq_some_iff.1 h
      obtain ⟨q, -, rfl⟩ := Option.map_eq_some_iff.1 h
      exact ⟨List.prefix_rfl, fun h => .inl h⟩
    · cases h; exact ⟨List.prefix_rfl, fun h => .inl h⟩
  | stdDone u v =>
    simp only [Manager.handle, Manager.finished] at h
    split at h
    · obtain ⟨r, -, h⟩ := Option.bind_eq_some_iff.1 h
      obtain ⟨q, -, rfl⟩ := Option.map_eq_some_iff.1 h
      exact ⟨List.prefix_rfl, fun h => .inl h⟩
    · cases h; exact ⟨List.prefix_rfl, fun h => .inl h⟩
  | processed c =>
    simp only [Manager.handle] at h
    obtain ⟨q, hq, h⟩ := Option.bind_eq_some_iff.1 h
    obtain ⟨q', hq', rfl⟩ := Option.map_eq_some_iff.1 h
    exact ⟨List.prefix_rfl, fun h => .inl h⟩
  | preprocessingDone =>
    simp only [Manager.handle, Option.bind_eq_bind, Option.bind_eq_some_iff] at h
    obtain ⟨lo, h1, hi, h2, n, h3, r, h4, ref, h5, ps, h6, h⟩ := h
    cases h
    exact ⟨List.prefix_append _ _, fun h => .inl h⟩

theorem load_mgr {m : Manager e} {f : Effect e} (h : m.load p series i = some f) :
    f.mgr.loaded = true ∧ f.mgr.data = m.data ∧ f.mgr.handed = m.handed := by
  unfold Manager.load at h
  split at h
  · obtain ⟨l, -, rfl⟩ := Option.map_eq_some_iff.1 h
    exact ⟨rfl, rfl, rfl⟩
  · cases h
    exact ⟨rfl, rfl, rfl⟩

theorem conn_step (ih : ∀ i, (s.mgr i).data.isSome = true → (s.mgr i).connected p = true) {t : LoadNet e} (ht : Step p s t) (i : Nat)
    (hd : (t.mgr i).data.isSome = true) : (t.mgr i).connected p = true := by
  cases ht with
  | arrive hn => exact ih i hd
  | helper hh => exact ih i hd
  | @handle j m rest f hm hf =>
    rw [post_mgr] at hd ⊢
    split at hd
    · next hj =>
      subst hj
      rw [if_pos rfl]
      have h1 : connected p f.mgr = connected p (s.mgr i) := by
        unfold connected
        rw [loaded_handle hf]
      rw [h1]
      rcases (handed_handle hf).2 hd with h | h
      · exact ih i h
      · exact h
    · next hj =>
      rw [if_neg hj]
      exact ih i hd

theorem grows_start {g : Effect e} {j : Nat} (h : (s.mgr j).load p series j = some g) (i : Nat) :
    ((post s j g).mgr i).loaded = Function.update (fun i => (s.mgr i).loaded) j true i ∧ ((post s j g).mgr i).data = (s.mgr i).data ∧
      ((post s j g).mgr i).handed = (s.mgr i).handed := by
  rw [post_mgr, Function.update_apply]
  split
  · next hj => subst hj; exact load_mgr h
  · exact ⟨rfl, rfl, rfl⟩

theorem conn_start (ih : ∀ i, (s.mgr i).data.isSome = true → (s.mgr i).connected p = true) {g : Effect e} {j : Nat}
    (h : (s.mgr j).load p series j = some g) (i : Nat) (hd : ((post s j g).mgr i).data.isSome = true) :
    ((post s j g).mgr i).connected p = true := by
  obtain ⟨h1, h2, -⟩ := grows_start h i
  rw [h2] at hd
  have h3 := ih i hd
  unfold connected at h3 ⊢
  rw [h1, Function.update_apply]
  split
  · rfl
  · exact h3

theorem conn_run {f : Nat → Unit} {s : (loading p series).S} (hs : (loading p series).Run f s) :
    ∀ i, (LoadNet.mgr s i).data.isSome = true → (LoadNet.mgr s i).connected p = true := by
  induction hs with
  | init => intro i h; cases h
  | start _ ht ih =>
    obtain ⟨h1, h2, g, h3, rfl⟩ := ht
    exact conn_start ih h3
  | step _ ht ih => exact conn_step ih ht

theorem grows_step {t : LoadNet e} (h : Step p s t) (i : Nat) :
    (t.mgr i).loaded = (s.mgr i).loaded ∧ (s.mgr i).handed <+: (t.mgr i).handed := by
  cases h with
  | arrive hn => exact ⟨rfl, List.prefix_rfl⟩
  | helper hh => exact ⟨rfl, List.prefix_rfl⟩
  | @handle j m rest f hm hf =>
    rw [post_mgr]
    split
    · next hj => subst hj; exact ⟨loaded_handle hf, (handed_handle hf).1⟩
    · exact ⟨rfl, List.prefix_rfl⟩

theorem loading_laws (hr : DataReader.readCsv p.nClusterNodes (p.patternLength - 1) series =
    some ((List.range p.nClusterNodes).map fun j => (j, parts j))) : (loading p series).Laws p.nClusterNodes where
  init i := rfl
  start := by
    rintro s i x t ⟨h1, h2, g, h3, rfl⟩
    refine ⟨h1, h2, funext fun b => ?_⟩
    exact (grows_start h3 b).1
  step := fun h => funext fun i => (grows_step h i).1
  out := by
    intro f s i y hs hy
    obtain ⟨h1, h2⟩ := loading_out.1 hy
    have h := inv_run hr hs
    show (LoadNet.mgr s i).loaded = true
    obtain ⟨g1, g2, g3, g4, g5, g6⟩ | ⟨q, r, fl, ans, g1, g2, g3, g4, g5, g6⟩ := h.pre i
    · rw [h2] at g6; cases g6
    · obtain ⟨k1, k2⟩ := h.flow.data_lt g3
      have k3 := conn_run hs i (by rw [g3]; rfl)
      unfold connected at k3
      simp only [Bool.or_eq_true, decide_eq_true_eq] at k3
      rcases k3 with k3 | k3
      · exact k3
      · obtain rfl : i = 0 := by omega
        exact k1
  stableStart := by
    rintro f s t i j y hs ⟨h1, h2, g, h3, rfl⟩ hy
    obtain ⟨k1, k2⟩ := loading_out.1 hy
    refine loading_out.2 ⟨k1, ?_⟩
    exact (grows_start h3 i).2.2.trans k2
  stableStep := by
    intro f s t i y hs ht hy
    obtain ⟨k1, k2⟩ := loading_out.1 hy
    refine loading_out.2 ⟨k1, ?_⟩
    obtain ⟨l, hl⟩ := (grows_step ht i).2
    have h1 := handed_le (i := i) (inv_run hr (.step hs ht))
    rw [← hl, k2] at h1
    have : l = [] := by
      cases l with
      | nil => rfl
      | cons a l => simp at h1
    rw [← hl, k2, this]
    rfl

theorem nodes_full {k : Nat} {l : List Nat} (h : ∀ j, l.count j = if j < k then 1 else 0) : l.length = k := by
  have : l.Perm (List.range k) := List.perm_iff_count.2 fun j => by rw [h j, List.count_range]
  simpa using this.length_eq

/-- When all nodes have begun and nothing more can happen, all have handed over their data. -/
theorem loading_live (hr : DataReader.readCsv p.nClusterNodes (p.patternLength - 1) series =
    some ((List.range p.nClusterNodes).map fun j => (j, parts j))) (hf : Feasible p parts) (ht : 0 < p.nThreads) (f : Nat → Unit) :
    (loading p series).Live p.nClusterNodes f where
  ready := by
    intro s hs i hi hst
    refine .inr ?_
    have : ∃ g, (LoadNet.mgr s i).load p series i = some g := by
      unfold Manager.load
      split
      · rw [hr]; exact ⟨_, rfl⟩
      · exact ⟨_, rfl⟩
    obtain ⟨g, hg⟩ := this
    exact ⟨_, hi, hst, g, hg, rfl⟩
  finish := by
    intro s hs hall
    by_cases hstep : ∃ t, (loading p series).step s t
    · exact .inl hstep
    right
    have h := inv_run hr hs
    have e1 : ∀ j, LoadNet.mailbox s j = [] := by
      intro j
      rcases hm : LoadNet.mailbox s j with _ | ⟨m, rest⟩
      · rfl
      · obtain ⟨g, hg⟩ := handle_some h hf hm
        exact absurd ⟨_, Step.handle hm hg⟩ hstep
    have e2 : LoadNet.net s = [] := by
      rcases hn : LoadNet.net s with _ | ⟨⟨i, m⟩, rest⟩
      · rfl
      · exact absurd ⟨_, Step.arrive (pre := []) hn⟩ hstep
    have e3 : ∀ j, LoadNet.helpers s j = [] := by
      intro j
      rcases hm : LoadNet.helpers s j with _ | ⟨m, rest⟩
      · rfl
      · exact absurd ⟨_, Step.helper (pre := []) hm⟩ hstep
    have e4 : ∀ g j, pend g s j = 0 := by
      intro g j
      unfold pend
      rw [e1 j, e2]
      rfl
    have e5 : ∀ j < p.nClusterNodes, (LoadNet.mgr s j).data.isSome = true := by
      intro j hj
      have h1 := h.flow.part j
      rw [e4, if_pos ⟨hall 0 hf.pos, hj⟩] at h1
      have h2 : (LoadNet.mgr s j).buffer = [] := by
        by_contra hb
        have := h.flow.buf j hb
        rw [show (LoadNet.mgr s j).loaded = true from hall j hj] at this
        cases this
      rw [h2] at h1
      cases hd : (LoadNet.mgr s j).data.isSome with
      | true => rfl
      | false => rw [hd] at h1; simp at h1
    have e6 : ∀ j, (LoadNet.mgr s j).data.isSome.toNat = if j < p.nClusterNodes then 1 else 0 := by
      intro j
      have h1 := h.flow.bound j
      by_cases hj : j < p.nClusterNodes
      · rw [e5 j hj, if_pos hj]; rfl
      · rw [if_neg hj] at h1 ⊢
        omega
    have e7 : (mmNodes s).length = p.nClusterNodes := nodes_full fun j => by
      have := h.flow.mm j
      rw [e4, e6 j] at this
      omega
    have e8 : (sdNodes s).length = p.nClusterNodes := nodes_full fun j => by
      have := h.flow.sd j
      rw [e4, e6 j] at this
      omega
    intro i hi
    have m1 := h.flow.mmDone i
    have m2 := h.flow.sdDone i
    rw [e4, if_pos ⟨e7, hi⟩] at m1
    rw [e4, if_pos ⟨e8, hi⟩] at m2
    have m3 : (LoadNet.mgr s i).stats.min.isSome = true := by
      cases hd : (LoadNet.mgr s i).stats.min.isSome with
      | true => rfl
      | false => rw [hd] at m1; simp at m1
    have m4 : (LoadNet.mgr s i).stats.std.isSome = true := by
      cases hd : (LoadNet.mgr s i).stats.std.isSome with
      | true => rfl
      | false => rw [hd] at m2; simp at m2
    have m5 : Stats.isDone (LoadNet.mgr s i).stats = true := by
      have k1 := h.flow.maxSome i
      simp [Stats.isDone, m3, m4, k1]
    obtain ⟨g1, g2, g3, g4, g5, g6⟩ | ⟨q, r, fl, ans, g1, g2, g3, g4, g5, g6⟩ := h.pre i
    · rw [m5] at g2; cases g2
    · rw [e4, e3] at g5
      rw [e4] at g6
      have k1 := g4.counts
      have k2 := g4.dist_eq
      have k3 := g4.done_eq
      simp only [g5, List.length_nil, Nat.add_zero] at k1 k2 k3
      have k4 : q.processed = e + 1 := by omega
      rw [if_pos ⟨k4, by omega⟩] at k3
      rw [k3] at g6
      obtain ⟨y, hy⟩ := List.length_eq_one_iff.1 (show (LoadNet.mgr s i).handed.length = 1 by omega)
      exact ⟨y, loading_out.2 ⟨hi, hy⟩⟩

/-! ### Every run ends -/

/-- How much can happen because of the answer of the main node. -/
def wDone (e : Nat) : Nat := 5 * (e + 1) + 1

/-- How much can happen because of the statistics of a node. -/
def wStat (k e : Nat) : Nat := k * (wDone e + 1) + 1

/-- How much can happen because of the rows of a node. -/
def wPart (k e : Nat) : Nat := 2 * (wStat k e + 1) + 1

/-- How much can happen because of a message in a mailbox. -/
def weight (k : Nat) : LoadMsg e → Nat
  | .partition _ => wPart k e
  | .minMax _ => wStat k e
  | .std _ => wStat k e
  | .minMaxDone _ _ => wDone e
  | .stdDone _ _ => wDone e
  | .processed _ => 3
  | .preprocessingDone => 1

/-- ... of messages between nodes. -/
def cost (k : Nat) (l : List (Nat × LoadMsg e)) : Nat := (l.map fun a => weight k a.2 + 1).sum

/-- ... of the state of a node. -/
def potential (k i : Nat) (m : Manager e) : Nat :=
  (if m.loaded then 0 else if i = 0 then k * (wPart k e + 1) + 1 else 3) + m.buffer.length * (wPart k e - 1) +
    5 * (m.preprocessing.elim 0 fun q => q.total - q.distributed)

/-- ... of everything. -/
def measure (k : Nat) (s : LoadNet e) : Nat :=
  cost k s.net + ∑ i ∈ Finset.range k, (potential k i (s.mgr i) + ((s.mailbox i).map (weight k)).sum + 4 * (s.helpers i).length)

theorem cost_append (k : Nat) (a b : List (Nat × LoadMsg e)) : cost k (a ++ b) = cost k a + cost k b := by simp [cost]

theorem cost_own (k i : Nat) (l : List (Nat × LoadMsg e)) :
    (((l.filter (·.1 = i)).map Prod.snd).map (weight k)).sum + cost k (l.filter (·.1 ≠ i)) ≤ cost k l := by
  induction l with
  | nil => simp [cost]
  | cons a l ih =>
    have h1 : cost k (a :: l) = weight k a.2 + 1 + cost k l := by simp [cost]
    by_cases h : a.1 = i
    · simp only [List.filter_cons, h, decide_true, if_true, List.map_cons, List.sum_cons, ne_eq, not_true_eq_false, decide_false] at ih ⊢
      simp only [h1]
      simp at ih ⊢
      omega
    · have h2 : cost k (a :: l.filter (·.1 ≠ i)) = weight k a.2 + 1 + cost k (l.filter (·.1 ≠ i)) := by simp [cost]
      simp only [List.filter_cons, h, decide_false, ne_eq, not_false_eq_true, decide_true, if_true] at ih ⊢
      simp only [h1]
      simp at ih h2 ⊢
      omega

theorem sum_change {k i : Nat} (hi : i < k) {f g : Nat → Nat} (h : ∀ j, j ≠ i → f j = g j) :
    ∑ j ∈ Finset.range k, f j + g i = ∑ j ∈ Finset.range k, g j + f i := by
  have h1 : ∑ j ∈ (Finset.range k).erase i, f j + f i = ∑ j ∈ Finset.range k, f j := Finset.sum_erase_add _ _ (Finset.mem_range.2 hi)
  have h2 : ∑ j ∈ (Finset.range k).erase i, g j + g i = ∑ j ∈ Finset.range k, g j := Finset.sum_erase_add _ _ (Finset.mem_range.2 hi)
  have h3 : ∑ j ∈ (Finset.range k).erase i, f j = ∑ j ∈ (Finset.range k).erase i, g j := Finset.sum_congr rfl fun j hj => h j (Finset.ne_of_mem_erase hj)
  omega

theorem measure_post {k : Nat} (hi : i < k) (g : Effect e) :
    measure k (post s i g) + potential k i (s.mgr i) ≤ measure k s + potential k i g.mgr + cost k g.sends + 4 * g.tasks.length := by
  have h1 := sum_change hi (f := fun j => potential k j ((post s i g).mgr j) + (((post s i g).mailbox j).map (weight k)).sum +
      4 * ((post s i g).helpers j).length)
    (g := fun j => potential k j (s.mgr j) + ((s.mailbox j).map (weight k)).sum + 4 * (s.helpers j).length) (fun j hj => by
      simp [post, Function.update_of_ne hj])
  have h2 := cost_own k i g.sends
  have h3 : measure k (post s i g) = cost k s.net + cost k (g.sends.filter (·.1 ≠ i)) + ∑ j ∈ Finset.range k, (potential k j ((post s i g).mgr j) + (((post s i g).mailbox j).map (weight k)).sum +
      4 * ((post s i g).helpers j).length) := by
    rw [← cost_append]
    rfl
  have h4 : potential k i ((post s i g).mgr i) + (((post s i g).mailbox i).map (weight k)).sum + 4 * ((post s i g).helpers i).length =
      potential k i g.mgr + (((s.mailbox i).map (weight k)).sum + (((g.sends.filter (·.1 = i)).map Prod.snd).map (weight k)).sum) +
        4 * ((s.helpers i).length + g.tasks.length) := by
    simp [post]
  simp only [h4] at h1
  rw [h3]
  unfold measure
  omega

theorem measure_pop {k : Nat} (hi : i < k) {m : LoadMsg e} {rest : List (LoadMsg e)} (hm : s.mailbox i = m :: rest) :
    measure k { s with mailbox := Function.update s.mailbox i rest } + weight k m = measure k s := by
  have h1 := sum_change hi (f := fun j => potential k j (s.mgr j) + ((Function.update s.mailbox i rest j).map (weight k)).sum + 4 * (s.helpers j).length)
    (g := fun j => potential k j (s.mgr j) + ((s.mailbox j).map (weight k)).sum + 4 * (s.helpers j).length) (fun j hj => by
      simp [Function.update_of_ne hj])
  simp only [Function.update_self, hm, List.map_cons, List.sum_cons] at h1
  unfold measure
  simp only
  omega

theorem measure_arrive {k : Nat} {m : LoadMsg e} {pre rest : List (Nat × LoadMsg e)} (hn : s.net = pre ++ (i, m) :: rest) :
    measure k { s with net := pre ++ rest, mailbox := Function.update s.mailbox i (s.mailbox i ++ [m]) } < measure k s := by
  have h0 : cost k s.net = cost k (pre ++ rest) + (weight k m + 1) := by
    rw [hn, cost_append, cost_append, show (i, m) :: rest = [(i, m)] ++ rest from rfl, cost_append]
    simp [cost]
    omega
  unfold measure
  simp only
  by_cases hi : i < k
  · have h1 := sum_change hi (f := fun j => potential k j (s.mgr j) + ((Function.update s.mailbox i (s.mailbox i ++ [m]) j).map (weight k)).sum + 4 * (s.helpers j).length)
      (g := fun j => potential k j (s.mgr j) + ((s.mailbox j).map (weight k)).sum + 4 * (s.helpers j).length) (fun j hj => by
        simp [Function.update_of_ne hj])
    simp only [Function.update_self, List.map_append, List.map_cons, List.map_nil, List.sum_append, List.sum_cons, List.sum_nil] at h1
    omega
  · have h1 : ∑ j ∈ Finset.range k, (potential k j (s.mgr j) + ((Function.update s.mailbox i (s.mailbox i ++ [m]) j).map (weight k)).sum + 4 * (s.helpers j).length) =
        ∑ j ∈ Finset.range k, (potential k j (s.mgr j) + ((s.mailbox j).map (weight k)).sum + 4 * (s.helpers j).length) := by
      refine Finset.sum_congr rfl fun j hj => ?_
      rw [Function.update_of_ne (by rintro rfl; exact hi (Finset.mem_range.1 hj))]
    omega

theorem measure_helper {k : Nat} (hi : i < k) {c : Nat} {pre rest : List Nat} (hh : s.helpers i = pre ++ c :: rest) :
    measure k { s with helpers := Function.update s.helpers i (pre ++ rest), mailbox := Function.update s.mailbox i (s.mailbox i ++ [.processed c]) } < measure k s := by
  have h1 := sum_change hi (f := fun j => potential k j (s.mgr j) + ((Function.update s.mailbox i (s.mailbox i ++ [.processed c]) j).map (weight k)).sum + 4 * (Function.update s.helpers i (pre ++ rest) j).length)
    (g := fun j => potential k j (s.mgr j) + ((s.mailbox j).map (weight k)).sum + 4 * (s.helpers j).length) (fun j hj => by
      simp [Function.update_of_ne hj])
  simp only [Function.update_self, hh, List.map_append, List.map_cons, List.map_nil, List.sum_append, List.sum_cons, List.sum_nil,
    List.length_append, List.length_cons, weight] at h1
  unfold measure
  simp only
  omega

/-- A handler needs less than its message is worth. -/
theorem handle_cost (h : Inv p parts s) {m : LoadMsg e} {rest : List (LoadMsg e)} (hm : s.mailbox i = m :: rest) {f : Effect e}
    (hf : (s.mgr i).handle p i m = some f) :
    potential p.nClusterNodes i f.mgr + cost p.nClusterNodes f.sends + 4 * f.tasks.length <
      potential p.nClusterNodes i (s.mgr i) + weight p.nClusterNodes m := by
  have hw : s.Waits i m := .inl (by rw [hm]; simp)
  have hfin : ∀ {x : Stats.DoneMsg (Fin (e + 1) → ℝ)}, (s.mgr i).finished p x = some f → potential p.nClusterNodes i f.mgr + cost p.nClusterNodes f.sends + 4 * f.tasks.length <
      potential p.nClusterNodes i (s.mgr i) + wDone e := by
    intro x hf
    unfold Manager.finished at hf
    simp only at hf
    split at hf
    · obtain ⟨r, -, hf⟩ := Option.bind_eq_some_iff.1 hf
      rw [Preproc.start_eq] at hf
      cases hf
      simp [potential, cost, wDone]
      omega
    · cases hf
      simp [potential, cost, wDone]
  cases m with
  | partition r =>
    simp only [Manager.handle] at hf
    split at hf
    · split at hf
      · cases hf
      · obtain ⟨y, hy, hf⟩ := Option.bind_eq_some_iff.1 hf
        split at hf
        · cases hf
        · cases hf
          simp [potential, cost, weight, wPart]
          omega
    · cases hf
      simp only [potential, cost, weight, List.length_append, List.length_cons, List.length_nil, Nat.add_mul, List.map_nil, List.sum_nil]
      have : 0 < wPart p.nClusterNodes e := by unfold wPart; omega
      omega
  | minMax x =>
    simp only [Manager.handle] at hf
    obtain ⟨c, hc, rfl⟩ := Option.map_eq_some_iff.1 hf
    obtain ⟨h1, lo, hi, h2⟩ := minMax_out p.nClusterNodes c x
    simp only [h2]
    split
    · next hl =>
      have : cost p.nClusterNodes (((c.nodes ++ [x.source]).map (fun a => (a, lo, hi))).map
          (fun a => (a.1, LoadMsg.minMaxDone a.2.1 a.2.2))) = p.nClusterNodes * (wDone e + 1) := by
        rw [← hl]
        simp only [cost, List.map_map]
        rw [show ((fun a : Nat × LoadMsg e => weight (c.nodes ++ [x.source]).length a.2 + 1) ∘
          (fun a : Nat × (Fin (e + 1) → ℝ) × (Fin (e + 1) → ℝ) => (a.1, LoadMsg.minMaxDone a.2.1 a.2.2)) ∘ fun a => (a, lo, hi)) =
            fun _ => wDone e + 1 from rfl]
        simp
        ring
      rw [this]
      simp [potential, weight, wStat]
    · simp [potential, weight, wStat, cost]
  | std x =>
    simp only [Manager.handle] at hf
    obtain ⟨c, hc, rfl⟩ := Option.map_eq_some_iff.1 hf
    obtain ⟨h1, lo, n, h2⟩ := std_out p.nClusterNodes c x
    have hi : i = 0 := by
      by_contra hi
      have h1 := h.flow.sd0 i hi x.source
      have h2 := hw.pend (f := isSD x.source) (by simp [isSD])
      omega
    subst hi
    have h3 := (h.flow.sd_nodes hw).1
    have h4 : sdNodes s = c.nodes := by unfold sdNodes; rw [hc]; rfl
    rw [h4] at h3
    simp only [h2]
    split
    · next hl =>
      have : cost p.nClusterNodes (((c.nodes ++ [x.source]).map (fun a => (a, lo, n))).map
          (fun a => (a.1, LoadMsg.stdDone a.2.1 a.2.2))) = p.nClusterNodes * (wDone e + 1) := by
        rw [← Nat.le_antisymm h3 hl]
        simp only [cost, List.map_map]
        rw [show ((fun a : Nat × LoadMsg e => weight (c.nodes ++ [x.source]).length a.2 + 1) ∘
          (fun a : Nat × (Fin (e + 1) → ℝ) × Nat => (a.1, LoadMsg.stdDone a.2.1 a.2.2)) ∘ fun a => (a, lo, n)) =
            fun _ => wDone e + 1 from rfl]
        simp
        ring
      rw [this]
      simp [potential, weight, wStat]
    · simp [potential, weight, wStat, cost]
  | minMaxDone a b => exact hfin hf
  | stdDone a b => exact hfin hf
  | processed c =>
    have h2 := hw.pend (f := isProc) rfl
    obtain ⟨g1, g2, g3, g4, g5, g6⟩ | ⟨q, r, fl, ans, g1, g2, g3, g4, g5, g6⟩ := h.pre i
    · omega
    · simp only [Manager.handle] at hf
      obtain ⟨q0, hq0, hf⟩ := Option.bind_eq_some_iff.1 hf
      rw [g1] at hq0
      cases hq0
      obtain ⟨q', hq', rfl⟩ := Option.map_eq_some_iff.1 hf
      have hne : fl ≠ [] := by
        rintro rfl
        simp at g5
        omega
      obtain ⟨c', fl', rfl⟩ := List.exists_cons_of_ne_nil hne
      have hst : Preproc.Step (K := ℝ) p.nThreads ⟨q, c' :: fl', ans⟩ ⟨q', (c' :: fl').erase c' ++ q'.tasks.drop q.tasks.length, ans ++ [c']⟩ :=
        .answer ⟨q, c' :: fl', ans⟩ c' [] q' (by simp) hq'
      have hi := Preproc.inv_step g4 hst
      have k1 := g4.total_eq
      have k2 := hi.total_eq
      have k3 := congrArg List.length g4.tasks_eq
      have k4 := congrArg List.length hi.tasks_eq
      have k5 := g4.dist_eq
      have k6 := hi.dist_eq
      have k7 := g4.proc_eq
      have k8 := hi.proc_eq
      simp only [List.length_range, List.length_append, List.length_cons, List.length_nil] at k1 k2 k3 k4 k5 k6 k7 k8
      have k9 : cost p.nClusterNodes (if q'.doneMsgs = q.doneMsgs then [] else [(i, (LoadMsg.preprocessingDone : LoadMsg e))]) ≤ 2 := by
        split <;> simp [cost, weight]
      simp only [potential, weight, Option.elim, g1, List.length_drop]
      simp only [k3, k4]
      omega
  | preprocessingDone =>
    simp only [Manager.handle, Option.bind_eq_bind, Option.bind_eq_some_iff] at hf
    obtain ⟨lo, h1, hi, h2, n, h3, r', h4, ref, h5, ps, h6, hf⟩ := hf
    cases hf
    simp [potential, cost, weight]

theorem measure_step (h : Inv p parts s) {t : LoadNet e} (ht : Step p s t) : measure p.nClusterNodes t < measure p.nClusterNodes s := by
  cases ht with
  | arrive hn => exact measure_arrive hn
  | @helper i c pre rest hh =>
    obtain ⟨g1, g2, g3, g4, g5, g6⟩ | ⟨q, r, fl, ans, g1, g2, g3, g4, g5, g6⟩ := h.pre i
    · rw [g3] at hh; simp at hh
    · exact measure_helper (h.flow.data_lt g3).2 hh
  | @handle i m rest f hm hf =>
    have hw : s.Waits i m := .inl (by rw [hm]; simp)
    have hi : i < p.nClusterNodes := by
      cases m with
      | partition r => exact (h.flow.here hw).2.1
      | minMax x =>
        have h2 := hw.pend (f := isMM x.source) (by simp [isMM])
        by_contra hc
        by_cases hi : i = 0
        · subst hi
          have h1 := h.flow.mm x.source
          have h3 := h.flow.bound x.source
          split at h3 <;> omega
        · have h1 := h.flow.mm0 i hi x.source
          omega
      | std x =>
        have h2 := hw.pend (f := isSD x.source) (by simp [isSD])
        by_contra hc
        by_cases hi : i = 0
        · subst hi
          have h1 := h.flow.sd x.source
          have h3 := h.flow.bound x.source
          split at h3 <;> omega
        · have h1 := h.flow.sd0 i hi x.source
          omega
      | minMaxDone a b =>
        have h2 := hw.pend (f := isMMDone) rfl
        have h1 := h.flow.mmDone i
        by_contra hc
        rw [if_neg (fun h => hc h.2)] at h1
        omega
      | stdDone a b =>
        have h2 := hw.pend (f := isSDDone) rfl
        have h1 := h.flow.sdDone i
        by_contra hc
        rw [if_neg (fun h => hc h.2)] at h1
        omega
      | processed c =>
        have h2 := hw.pend (f := isProc) rfl
        obtain ⟨g1, g2, g3, g4, g5, g6⟩ | ⟨q, r, fl, ans, g1, g2, g3, g4, g5, g6⟩ := h.pre i
        · omega
        · exact (h.flow.data_lt g3).2
      | preprocessingDone =>
        have h2 := hw.pend (f := isEnd) rfl
        obtain ⟨g1, g2, g3, g4, g5, g6⟩ | ⟨q, r, fl, ans, g1, g2, g3, g4, g5, g6⟩ := h.pre i
        · omega
        · exact (h.flow.data_lt g3).2
    have h1 := measure_pop hi hm
    have h2 := measure_post (s := { s with mailbox := Function.update s.mailbox i rest }) hi f
    have h3 := handle_cost h hm hf
    simp only at h2
    omega

theorem measure_start (h : Inv p parts s) (hr : DataReader.readCsv p.nClusterNodes (p.patternLength - 1) series =
    some ((List.range p.nClusterNodes).map fun j => (j, parts j))) (hi : i < p.nClusterNodes) (hl : (s.mgr i).loaded = false) {g : Effect e}
    (hg : (s.mgr i).load p series i = some g) : measure p.nClusterNodes (post s i g) < measure p.nClusterNodes s := by
  have h1 := measure_post (s := s) hi g
  unfold Manager.load at hg
  split at hg
  · next h0 =>
    subst h0
    rw [hr] at hg
    cases hg
    have : cost p.nClusterNodes (((List.range p.nClusterNodes).map fun j => (j, parts j)).map fun a => (a.1, LoadMsg.partition a.2)) =
        p.nClusterNodes * (wPart p.nClusterNodes e + 1) := by
      simp only [cost, List.map_map]
      rw [show ((fun a : Nat × LoadMsg e => weight p.nClusterNodes a.2 + 1) ∘
          (fun a : Nat × List (Fin (e + 1) → ℝ) => (a.1, LoadMsg.partition a.2)) ∘ fun j => (j, parts j)) =
            fun _ => wPart p.nClusterNodes e + 1 from rfl]
      simp
    simp only [this, potential, hl, if_true, List.length_nil] at h1 ⊢
    simp at h1 ⊢
    omega
  · next h0 =>
    cases hg
    have hb : (s.mgr i).buffer.length ≤ 1 := by
      have := h.flow.part i
      split at this <;> omega
    have h2 : 0 < wPart p.nClusterNodes e := by unfold wPart; omega
    rcases hbl : (s.mgr i).buffer with _ | ⟨r, _ | ⟨r', l⟩⟩
    · simp only [potential, hl, h0, hbl, cost] at h1
      simp at h1 ⊢
      omega
    · simp only [potential, hl, h0, hbl, cost, List.reverse_singleton, List.map_cons, List.map_nil, List.sum_cons, List.sum_nil, weight] at h1
      simp at h1 ⊢
      omega
    · rw [hbl] at hb; simp at hb

/-- Every run of the data managers ends. -/
theorem loading_terminates (hr : DataReader.readCsv p.nClusterNodes (p.patternLength - 1) series =
    some ((List.range p.nClusterNodes).map fun j => (j, parts j))) (f : Nat → Unit) : (loading p series).Terminates f := by
  refine Subrelation.wf (r := InvImage (· < ·) (fun s : (loading p series).S => measure p.nClusterNodes s)) ?_ (InvImage.wf _ Nat.lt_wfRel.wf)
  rintro t s ⟨hs, ht | ⟨i, h1, h2, g, h3, rfl⟩⟩
  · exact measure_step (inv_run hr hs) ht
  · exact measure_start (inv_run hr hs) hr h1 h2 h3

/-- **C87 (no deadlock).** Every run of the data managers ends, and when nothing more can happen, every node has handed over its data. -/
theorem C87_ends (hr : DataReader.readCsv p.nClusterNodes (p.patternLength - 1) series = some ((List.range p.nClusterNodes).map fun j => (j, parts j)))
    (hf : Feasible p parts) (ht : 0 < p.nThreads) (f : Nat → Unit) : (loading p series).Terminates f ∧
      ∀ s, (loading p series).Run f s → (¬ ∃ t, (loading p series).Move f s t) → ∀ i < p.nClusterNodes, ∃ y, (loading p series).out s i = some y :=
  ⟨loading_terminates hr f, fun _ hs hno => ((loading_live hr hf ht f).move hs).resolve_left hno⟩

end LoadNet
end S2G
