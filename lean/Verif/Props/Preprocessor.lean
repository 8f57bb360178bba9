import Verif.Model.Preprocessor
import Mathlib.Data.List.Nodup
import Mathlib.Data.List.Perm.Subperm
import Mathlib.Tactic.Linarith
import Mathlib.Data.Int.Order.Basic

/-!
# C11, C12, C13: preprocessing and early data partitions
-/

namespace S2G

namespace PreprocessorHelper
variable {K : Type} [Ring K] [DecidableEq K]

/-- C12 (helper): the helper returns the column unchanged, whatever flat regions it contains; it crashes exactly for
an empty column. -/
theorem C12_helper_identity (windowSize : Nat) (tenth std : K) (column : List K) :
    (preprocess windowSize tenth column std).map Prod.fst = if column = [] then none else some column := by
  cases column with
  | nil => rfl
  | cons x xs => simp [preprocess]

/-- The flat region detection does find something, and the oscillation differs from the data: the helper computes a
change that never reaches the column. -/
example : preprocess (K := Int) 2 1 [5, 7, 7, 7, 7, 5] 10 = some ([5, 7, 7, 7, 7, 5], [[7, 17, 7]]) := by decide

end PreprocessorHelper

namespace Preproc
variable {D : Type} {K : Type}

theorem distLoop_spec (m : Nat) : ∀ (l a i : Nat) (s : Preproc D),
    distLoop m i (List.range' a l) s =
      { s with tasks := s.tasks ++ List.range' a (min l (m - i)),
               distributed := s.distributed + min l (m - i) } := by
  intro l
  induction l with
  | zero => intro a i s; simp [distLoop]
  | succ l ih =>
    intro a i s
    rw [List.range'_succ]
    unfold distLoop
    split
    · rename_i h
      rw [ih]
      have h1 : min (l + 1) (m - i) = min l (m - (i + 1)) + 1 := by omega
      rw [h1, List.range'_succ]
      simp only [List.append_assoc, List.cons_append, List.nil_append]
      congr 1
      omega
    · rename_i h
      have h1 : m - i = 0 := by omega
      simp [h1]

/-- Invariant of the distribution of columns. -/
structure Inv (t total : Nat) (data : D) (s : Sys D) : Prop where
  total_eq : s.mgr.total = total
  data_eq : s.mgr.data = data
  dist_eq : s.mgr.distributed = min total (s.mgr.processed + t)
  tasks_eq : s.mgr.tasks = List.range s.mgr.distributed
  split : (s.answered ++ s.inFlight).Perm s.mgr.tasks
  proc_eq : s.mgr.processed = s.answered.length
  done_eq : s.mgr.doneMsgs = if s.mgr.processed = total ∧ 0 < total then 1 else 0

theorem distributeWork_eq {t : Nat} {m : Preproc D} (h1 : m.processed ≤ m.distributed)
    (h2 : m.distributed ≤ m.processed + t) (h3 : m.distributed ≤ m.total) :
    distributeWork t m = some
      { m with tasks := m.tasks ++ List.range' m.distributed (min m.total (m.processed + t) - m.distributed),
               distributed := min m.total (m.processed + t) } := by
  simp only [distributeWork, checkedSub, Option.bind_eq_bind]
  rw [if_pos h1]
  simp only [Option.bind_some]
  rw [if_pos (by omega)]
  simp only [Option.bind_some]
  rw [distLoop_spec]
  have : min (m.total - m.distributed) (t - (m.distributed - m.processed) - 0) =
    min m.total (m.processed + t) - m.distributed := by omega
  rw [this]
  congr 2
  omega

theorem start_eq (t total : Nat) (data : D) :
    start t total data = some
      { total := total, data := data, tasks := List.range (min total t), distributed := min total t } := by
  rw [start, distributeWork_eq (by simp) (by simp) (by simp)]
  simp [List.range_eq_range']

theorem inv_init (t total : Nat) (data : D) (m : Preproc D) (h : start t total data = some m) :
    Inv t total data { mgr := m, inFlight := m.tasks, answered := [] } := by
  rw [start_eq] at h
  cases h
  refine ⟨rfl, rfl, by simp, rfl, by simp, rfl, ?_⟩
  simp only
  rw [if_neg]; rintro ⟨h1, h2⟩; omega

/-- Consequences of the invariant for the numbers. -/
theorem Inv.counts {t total : Nat} {data : D} {s : Sys D} (h : Inv t total data s) :
    s.mgr.processed + s.inFlight.length = s.mgr.distributed ∧ s.inFlight.length ≤ t ∧
    s.mgr.processed ≤ total := by
  have h1 := h.split.length_eq
  rw [h.tasks_eq] at h1
  simp only [List.length_append, List.length_range] at h1
  have := h.proc_eq
  have := h.dist_eq
  omega

/-- The handler never crashes for a column in flight. -/
theorem handle_ok {t total : Nat} {data : D} {s : Sys D} (h : Inv t total data s) {c : Nat}
    (hc : c ∈ s.inFlight) (col : List K) :
    handleProcessed t s.mgr c col = some
      { s.mgr with
        processed := s.mgr.processed + 1
        tasks := List.range (min total (s.mgr.processed + 1 + t))
        distributed := min total (s.mgr.processed + 1 + t)
        doneMsgs := if s.mgr.processed + 1 = total then 1 else 0 } := by
  obtain ⟨h1, h2, h3⟩ := h.counts
  have hlen : 0 < s.inFlight.length := List.length_pos_of_mem hc
  have hd := h.dist_eq
  have hdone : s.mgr.doneMsgs = 0 := by
    rw [h.done_eq, if_neg]; rintro ⟨h4, _⟩; omega
  simp only [handleProcessed, h.total_eq]
  split
  · rename_i heq
    have e1 : min total (s.mgr.processed + 1 + t) = s.mgr.distributed := by omega
    have ht := h.total_eq
    have htk := h.tasks_eq
    rw [e1, ← htk, hdone]
  · rename_i hne
    rw [distributeWork_eq (by simp only; omega) (by simp only; omega)
      (by simp only; omega)]
    simp only [h.tasks_eq, hdone]
    have e1 : min total (s.mgr.processed + 1 + t) =
      s.mgr.distributed + (min total (s.mgr.processed + 1 + t) - s.mgr.distributed) := by omega
    congr 2
    conv_rhs => rw [e1]
    rw [List.range_eq_range', List.range_eq_range', ← List.range'_append]
    simp only [Nat.zero_add, Nat.one_mul]

theorem inv_step {t total : Nat} {data : D} {s s' : Sys D} (h : Inv t total data s)
    (hs : Step (K := K) t s s') : Inv t total data s' := by
  cases hs with
  | answer c col m hc hm =>
    rw [handle_ok h hc col] at hm
    cases hm
    obtain ⟨h1, h2, h3⟩ := h.counts
    have hlen : 0 < s.inFlight.length := List.length_pos_of_mem hc
    have hd := h.dist_eq
    refine ⟨h.total_eq, h.data_eq, rfl, rfl, ?_, by simp [h.proc_eq], ?_⟩
    · simp only [h.tasks_eq, List.length_range]
      have e : List.range (min total (s.mgr.processed + 1 + t)) =
          List.range s.mgr.distributed ++
            (List.range (min total (s.mgr.processed + 1 + t))).drop s.mgr.distributed := by
        conv_lhs => rw [← List.take_append_drop s.mgr.distributed
          (List.range (min total (s.mgr.processed + 1 + t)))]
        rw [List.take_range, Nat.min_eq_left (by omega)]
      conv_rhs => rw [e]
      rw [← List.append_assoc]
      refine List.Perm.append_right _ ?_
      rw [← h.tasks_eq]
      refine List.Perm.trans ?_ h.split
      rw [List.append_assoc]
      exact (List.perm_cons_erase hc).symm.append_left _
    · simp only
      by_cases he : s.mgr.processed + 1 = total
      · rw [if_pos he, if_pos ⟨he, by omega⟩]
      · rw [if_neg he, if_neg (fun h => he h.1)]

theorem inv_reachable {t total : Nat} {data : D} {s : Sys D}
    (h : Reachable (K := K) t total data s) : Inv t total data s := by
  induction h with
  | init m hm => exact inv_init t total data m hm
  | step _ hs ih => exact inv_step ih hs

/-- C11a: in every reachable state, for every order of answers: every column has been sent at most once (as the
columns `0, 1, 2, …` in order), at most `nThreads` are in flight, and completion has been announced exactly when all
columns have been answered, and then exactly once. -/
theorem C11_safety {t total : Nat} {data : D} {s : Sys D} (h : Reachable (K := K) t total data s) :
    s.mgr.tasks.Nodup ∧ (∀ c ∈ s.mgr.tasks, c < total) ∧ s.answered.Nodup ∧
    s.inFlight.length ≤ t ∧
    s.mgr.doneMsgs ≤ 1 ∧
    (s.mgr.doneMsgs = 1 ↔ 0 < total ∧ ∀ c, c < total → c ∈ s.answered) := by
  have hi := inv_reachable h
  obtain ⟨h1, h2, h3⟩ := hi.counts
  have hd := hi.dist_eq
  have hnd : (s.answered ++ s.inFlight).Nodup := by
    rw [hi.split.nodup_iff, hi.tasks_eq]; exact List.nodup_range
  refine ⟨by rw [hi.tasks_eq]; exact List.nodup_range, ?_, (List.nodup_append.1 hnd).1, h2, ?_, ?_⟩
  · intro c hc; rw [hi.tasks_eq, List.mem_range] at hc; omega
  · rw [hi.done_eq]; split <;> omega
  · rw [hi.done_eq]
    constructor
    · intro h
      split at h
      · rename_i hh
        refine ⟨hh.2, fun c hc => ?_⟩
        have hlen0 : s.inFlight.length = 0 := by omega
        have hnil := List.length_eq_zero_iff.1 hlen0
        have hp := hi.split
        rw [hnil, List.append_nil, hi.tasks_eq] at hp
        rw [hp.mem_iff, List.mem_range]; omega
      · omega
    · rintro ⟨h4, h5⟩
      rw [if_pos]
      refine ⟨?_, h4⟩
      have : (List.range total).Subperm s.answered :=
        List.Nodup.subperm List.nodup_range (fun c hc => h5 c (List.mem_range.1 hc))
      have := this.length_le
      rw [List.length_range] at this
      rw [hi.proc_eq]
      have := hi.proc_eq
      omega

/-- C11b: no deadlock and no crash: as long as completion has not been announced, some column is in flight, and
its answer can be handled. -/
theorem C11_progress {t total : Nat} {data : D} {s : Sys D} (ht : 0 < t) (hn : 0 < total)
    (h : Reachable (K := K) t total data s) (hnd : s.mgr.doneMsgs = 0) :
    s.inFlight ≠ [] ∧ ∀ c ∈ s.inFlight, ∀ col : List K, ∃ s', Step (K := K) t s s' ∧
      s'.answered = s.answered ++ [c] ∧
      (∃ m, handleProcessed t s.mgr c col = some m ∧ s'.mgr = m) := by
  have hi := inv_reachable h
  obtain ⟨h1, h2, h3⟩ := hi.counts
  have hd := hi.dist_eq
  constructor
  · intro hnil
    rw [hnil] at h1
    simp at h1
    rw [hi.done_eq] at hnd
    split at hnd
    · omega
    · rename_i hh
      apply hh
      exact ⟨by omega, hn⟩
  · intro c hc col
    have hok := handle_ok hi hc col
    exact ⟨_, Step.answer s c col _ hc hok, rfl, _, hok, rfl⟩

/-- C11c: every step answers one more column, and there are `total` columns: the stage terminates. -/
theorem C11_terminates {t total : Nat} {data : D} {s s' : Sys D}
    (h : Reachable (K := K) t total data s) (hs : Step (K := K) t s s') :
    s'.answered.length = s.answered.length + 1 ∧ s'.answered.length ≤ total := by
  have hi := inv_reachable (Reachable.step h hs)
  refine ⟨?_, ?_⟩
  · cases hs; simp
  · rw [← hi.proc_eq]; exact hi.counts.2.2

/-- C11d: without threads or without columns completion is never announced (the pipeline hangs). -/
theorem C11_hang {t total : Nat} {data : D} {s : Sys D} (h0 : t = 0 ∨ total = 0)
    (h : Reachable (K := K) t total data s) : s.mgr.doneMsgs = 0 ∧ s.inFlight = [] := by
  have hi := inv_reachable h
  obtain ⟨h1, h2, h3⟩ := hi.counts
  have hd := hi.dist_eq
  have hl : s.inFlight.length = 0 := by omega
  refine ⟨?_, List.length_eq_zero_iff.1 hl⟩
  rw [hi.done_eq, if_neg]
  rintro ⟨h4, h5⟩
  rcases h0 with rfl | rfl
  · -- with no threads nothing is ever answered
    have hz : ∀ {s : Sys D}, Reachable (K := K) 0 total data s → s.mgr.processed = 0 := by
      intro s hr
      induction hr with
      | init m hm => rw [start_eq] at hm; cases hm; rfl
      | step hr hs ih =>
        cases hs with
        | answer c col m hc hm =>
          have := (inv_reachable hr).counts.2.1
          have := List.length_pos_of_mem hc
          omega
    have := hz h
    omega
  · omega

/-- C12 (manager): the data of the manager is the data it had before, in every reachable state, whatever columns the
helpers send back. -/
theorem C12_data_unchanged {t total : Nat} {data : D} {s : Sys D}
    (h : Reachable (K := K) t total data s) : s.mgr.data = data := (inv_reachable h).data_eq

/-- Concrete run: 3 columns, 2 threads, answers in the order 1, 0, 2. -/
example : ∃ s : Sys Nat, Reachable (K := Nat) 2 3 42 s ∧ s.answered = [1, 0, 2] ∧ s.mgr.doneMsgs = 1 := by
  refine ⟨_, .step (.step (.step (.init _ rfl) (.answer _ 1 [] _ (by decide) rfl))
    (.answer _ 0 [] _ (by decide) rfl)) (.answer _ 2 [] _ (by decide) rfl), rfl, rfl⟩

end Preproc

namespace DataMgr
variable {P : Type}

/-- partitions in a mailbox -/
def parts : List (DataMsg P) → List P
  | [] => []
  | .partition x :: ms => x :: parts ms
  | .loadData _ :: ms => parts ms

theorem parts_append (a b : List (DataMsg P)) : parts (a ++ b) = parts a ++ parts b := by
  induction a with
  | nil => rfl
  | cons m a ih => cases m <;> simp [parts, ih]

theorem parts_map (l : List P) : parts (l.map DataMsg.partition) = l := by
  induction l with
  | nil => rfl
  | cons x l ih => simp [parts, ih]

/-- Executions: state together with the messages that arrived from outside. All cluster views that arrive are
complete. -/
inductive Exec (p : Parameters) : List (DataMsg P) → DataMgr P → Prop
  | init : Exec p [] {}
  | arrive {arr : List (DataMsg P)} {s : DataMgr P} (h : Exec p arr s) (m : DataMsg P)
      (hm : ∀ nodes, m = .loadData nodes → nodes.allConnected p = true) :
      Exec p (arr ++ [m]) { s with mailbox := s.mailbox ++ [m] }
  | process {arr : List (DataMsg P)} {s : DataMgr P} (h : Exec p arr s) (m : DataMsg P)
      (rest : List (DataMsg P)) (hm : s.mailbox = m :: rest) :
      Exec p arr (handle p { s with mailbox := rest } m)

def isLoad : DataMsg P → Bool
  | .loadData _ => true
  | _ => false

structure Inv (p : Parameters) (arr : List (DataMsg P)) (s : DataMgr P) : Prop where
  perm : (s.processed ++ s.buffer ++ parts s.mailbox).Perm (parts arr)
  conn : s.nodes.allConnected p = true → s.buffer = []
  load : (∃ m ∈ arr, isLoad m = true) →
    s.nodes.allConnected p = true ∨ ∃ m ∈ s.mailbox, isLoad m = true
  good : ∀ m ∈ s.mailbox, ∀ nodes, m = .loadData nodes → nodes.allConnected p = true

theorem inv_exec {p : Parameters} {arr : List (DataMsg P)} {s : DataMgr P} (h : Exec p arr s) :
    Inv p arr s := by
  induction h with
  | init => exact ⟨by simp [parts], by simp, by simp, by simp⟩
  | arrive h m hm ih =>
    refine ⟨?_, ih.conn, ?_, ?_⟩
    · simp only [parts_append]
      rw [← List.append_assoc]
      exact ih.perm.append_right _
    · rintro ⟨m', hm', hl⟩
      simp only [List.mem_append, List.mem_singleton] at hm' ⊢
      rcases hm' with hm' | rfl
      · rcases ih.load ⟨m', hm', hl⟩ with h | ⟨m'', h1, h2⟩
        · exact Or.inl h
        · exact Or.inr ⟨m'', Or.inl h1, h2⟩
      · exact Or.inr ⟨m', Or.inr rfl, hl⟩
    · intro m' hm' nodes he
      simp only [List.mem_append, List.mem_singleton] at hm'
      rcases hm' with hm' | rfl
      · exact ih.good m' hm' nodes he
      · exact hm nodes he
  | @process arr s h m rest hm ih =>
    have hp := ih.perm
    rw [hm] at hp
    cases m with
    | partition x =>
      simp only [parts] at hp
      have hload : (∃ m ∈ arr, isLoad m = true) →
          s.nodes.allConnected p = true ∨ ∃ m ∈ rest, isLoad m = true := by
        intro hh
        rcases ih.load hh with h | ⟨m', h1, h2⟩
        · exact Or.inl h
        · rw [hm] at h1
          rcases List.mem_cons.1 h1 with rfl | h1
          · simp [isLoad] at h2
          · exact Or.inr ⟨m', h1, h2⟩
      have hgood : ∀ m ∈ rest, ∀ nodes, m = .loadData nodes → nodes.allConnected p = true :=
        fun m' hm' => ih.good m' (by rw [hm]; simp [hm'])
      simp only [handle]
      by_cases hc : s.nodes.allConnected p = true
      · rw [if_pos hc]
        refine ⟨?_, fun _ => ih.conn hc, hload, hgood⟩
        refine List.Perm.trans ?_ hp
        simp only [ih.conn hc, List.append_nil, List.append_assoc, List.cons_append, List.nil_append]
        exact List.Perm.refl _
      · rw [if_neg hc]
        refine ⟨?_, fun h => absurd h hc, hload, hgood⟩
        refine List.Perm.trans ?_ hp
        simp only [List.append_assoc, List.cons_append, List.nil_append]
        exact List.Perm.refl _
    | loadData nodes =>
      simp only [parts] at hp
      have hn : nodes.allConnected p = true := ih.good (.loadData nodes) (by rw [hm]; simp) nodes rfl
      simp only [handle]
      refine ⟨?_, fun _ => rfl, fun _ => Or.inl hn, ?_⟩
      · refine List.Perm.trans ?_ hp
        simp only [List.append_nil, parts_append, parts_map, List.append_assoc]
        refine List.Perm.append_left _ ?_
        exact List.perm_append_comm.trans ((List.reverse_perm _).append_right _)
      · intro m' hm' nodes' he
        subst he
        simp only [List.mem_append, List.mem_map] at hm'
        rcases hm' with hm' | ⟨x, _, hx⟩
        · exact ih.good (.loadData nodes') (by rw [hm]; simp [hm']) nodes' rfl
        · cases hx

/-- C13a: at any time, every partition that arrived has been processed exactly once or is still waiting (in the
buffer or in the mailbox); nothing is lost or duplicated. -/
theorem C13_conservation {p : Parameters} {arr : List (DataMsg P)} {s : DataMgr P} (h : Exec p arr s) :
    (s.processed ++ s.buffer ++ parts s.mailbox).Perm (parts arr) := (inv_exec h).perm

/-- C13b: once the cluster has been formed and the mailbox is empty, every partition that arrived, before or after,
has been processed exactly once. -/
theorem C13_all_processed {p : Parameters} {arr : List (DataMsg P)} {s : DataMgr P} (h : Exec p arr s)
    (hload : ∃ nodes, DataMsg.loadData nodes ∈ arr) (hq : s.mailbox = []) :
    s.processed.Perm (parts arr) := by
  have hi := inv_exec h
  obtain ⟨nodes, hn⟩ := hload
  have hc : s.nodes.allConnected p = true := by
    rcases hi.load ⟨_, hn, rfl⟩ with h | ⟨m, h1, _⟩
    · exact h
    · rw [hq] at h1; simp at h1
  have := hi.perm
  rw [hi.conn hc, hq] at this
  simpa [parts] using this

/-- Work left: every handled message decreases it, so the mailbox becomes empty when nothing arrives any more. -/
def work (p : Parameters) (s : DataMgr P) : Nat :=
  if s.nodes.allConnected p then s.mailbox.length else 2 * s.mailbox.length + s.buffer.length

/-- C13c: handling the mailbox terminates. -/
theorem C13_terminates {p : Parameters} {arr : List (DataMsg P)} {s : DataMgr P} (h : Exec p arr s)
    (m : DataMsg P) (rest : List (DataMsg P)) (hm : s.mailbox = m :: rest) :
    work p (handle p { s with mailbox := rest } m) < work p s := by
  have hi := inv_exec h
  cases m with
  | partition x =>
    simp only [handle]
    by_cases hc : s.nodes.allConnected p = true
    · simp [hc, work, hm]
    · simp [hc, work, hm]; omega
  | loadData nodes =>
    have hn : nodes.allConnected p = true := hi.good (.loadData nodes) (by rw [hm]; simp) nodes rfl
    by_cases hc : s.nodes.allConnected p = true
    · simp [handle, work, hn, hc, hm, hi.conn hc]
    · simp [handle, work, hn, hc, hm]; omega

/-! Concrete execution: two nodes; a partition arrives and is handled before the cluster is formed. -/
example : ∃ s : DataMgr Nat, Exec ⟨3, 1, 5, 100, 1, 2, false⟩ [.partition 7, .loadData ⟨[(0, 0)]⟩] s ∧
    s.mailbox = [] ∧ s.processed = [7] := by
  refine ⟨_, .process (.process (.arrive (.process (.arrive .init (.partition 7) (by simp)) _ _ rfl)
    (.loadData ⟨[(0, 0)]⟩) ?_) _ _ rfl) _ _ rfl, rfl, rfl⟩
  intro nodes h; cases h; rfl

end DataMgr
end S2G
