import Verif.Model.Ring
import Verif.Props.DirectProtocol

/-!
# C18: ring rotation

* `C18_done_once`, `C18_quiescent_done`, `C18_terminates`: all cluster sizes, all schedules.
* `C18_processing_order`, `C18_rotation_complete`: all cluster sizes, all schedules in
  which no node enters the stage with a non-empty buffer *and* a non-empty mailbox.
* `C18_two_nodes`: for two nodes this side condition always holds, so the claim holds without it.
* `C18_counterexample`: without the side condition the claim is false for three nodes.

The exact condition for all cluster sizes is in `RingExact.lean` (`C18_correct_iff`).
-/

namespace S2G
namespace RingNet
variable {P : Type}

/-- previous node on the ring -/
def prv (k i : Nat) : Nat := (i + (k - 1)) % k

theorem nxt_lt {k i : Nat} (hk : 2 ≤ k) : nxt k i < k := Nat.mod_lt _ (by omega)
theorem prv_lt {k i : Nat} (hk : 2 ≤ k) : prv k i < k := Nat.mod_lt _ (by omega)

theorem nxt_eq {k i : Nat} (hi : i < k) : nxt k i = if i + 1 = k then 0 else i + 1 := by
  unfold nxt; split
  · next h => rw [h, Nat.mod_self]
  · exact Nat.mod_eq_of_lt (by omega)

theorem prv_eq {k i : Nat} (hi : i < k) : prv k i = if i = 0 then k - 1 else i - 1 := by
  unfold prv; split
  · next h => subst h; rw [Nat.zero_add]; exact Nat.mod_eq_of_lt (by omega)
  · rw [show i + (k - 1) = (i - 1) + k by omega, Nat.add_mod_right]
    exact Nat.mod_eq_of_lt (by omega)

theorem prv_nxt {k i : Nat} (hk : 2 ≤ k) (hi : i < k) : prv k (nxt k i) = i := by
  rw [prv_eq (nxt_lt hk), nxt_eq hi]; split <;> split <;> omega

theorem nxt_prv {k i : Nat} (hk : 2 ≤ k) (hi : i < k) : nxt k (prv k i) = i := by
  rw [nxt_eq (prv_lt hk), prv_eq hi]; split <;> split <;> omega

theorem nxt_ne {k i : Nat} (hk : 2 ≤ k) (hi : i < k) : nxt k i ≠ i := by
  rw [nxt_eq hi]; split <;> omega

theorem prv_ne {k i : Nat} (hk : 2 ≤ k) (hi : i < k) : prv k i ≠ i := by
  rw [prv_eq hi]; split <;> omega

/-- everything that node `i` has put on its outgoing link so far -/
def sentOn (k : Nat) (s : RingNet P) (i : Nat) : List (RMsg P) :=
  if s.started i then ⟨i, s.pay i⟩ :: (s.processed i).take (k - 2) else []

/-- everything that was ever on the way to node `i`, in the order of the link -/
def history (s : RingNet P) (i : Nat) : List (RMsg P) :=
  s.processed i ++ ((s.proto i).buffer ++ (s.mailbox i ++ s.net i))

/-- Invariant of all schedules: every node gets as many messages as its predecessor has sent. -/
structure Inv (k : Nat) (s : RingNet P) : Prop where
  count : ∀ i < k, (history s i).length = (sentOn k s (prv k i)).length
  idle : ∀ i < k, s.started i = false →
    (s.proto i).nTotal = 0 ∧ (s.proto i).nReceived = 0 ∧ (s.proto i).nSent = 0 ∧
      s.processed i = [] ∧ s.done i = 0
  active : ∀ i < k, s.started i = true →
    (s.proto i).nTotal = k - 1 ∧ (s.proto i).nReceived = (s.processed i).length ∧
      (s.proto i).nSent = 1 + min (s.processed i).length (k - 2) ∧ (s.proto i).buffer = [] ∧
      s.done i = if (s.processed i).length = k - 1 then 1 else 0

theorem inv_init {k : Nat} (pay : Nat → P) : Inv k (init pay) := by
  constructor <;> simp [init, history, sentOn]

theorem sentOn_length {k : Nat} (hk : 2 ≤ k) (s : RingNet P) (i : Nat) :
    (sentOn k s i).length ≤ k - 1 := by
  unfold sentOn; split
  · simp; omega
  · simp

theorem history_length {k : Nat} (hk : 2 ≤ k) {s : RingNet P} (h : Inv k s) {i : Nat} (hi : i < k) :
    (history s i).length ≤ k - 1 := by
  rw [h.count i hi]; exact sentOn_length hk _ _

theorem inv_start {k : Nat} (hk : 2 ≤ k) {s : RingNet P} (h : Inv k s) {i : Nat} (b : P) (hi : i < k)
    (hs : s.started i = false) :
    Inv k (startStep k s i b) := by
  obtain ⟨h1, h2, h3, h4, h5⟩ := h.idle i hi hs
  have hne := nxt_ne hk hi
  constructor
  · intro j hj
    have hq := h.count j hj
    by_cases hji : j = i
    · subst hji
      have hp := prv_ne hk hj
      simp only [history, sentOn, startStep, Proto.resolveBuffer, Proto.start, Proto.sent,
        Function.update_self, Function.update_of_ne hne.symm, Function.update_of_ne hp] at hq ⊢
      rw [← hq]
      simp only [List.length_append, List.length_nil]
      omega
    · by_cases hjn : j = nxt k i
      · subst hjn
        have hpn := prv_nxt hk hi
        rw [hpn] at hq ⊢
        simp only [history, sentOn, hs] at hq
        simp only [history, sentOn, startStep, Proto.resolveBuffer, Proto.start, Proto.sent,
          Function.update_self, Function.update_of_ne hne, if_true, h4, List.take_nil]
        simp only [Bool.false_eq_true, if_false, List.length_append, List.length_nil] at hq
        simp only [List.length_append, List.length_cons, List.length_nil]
        omega
      · have hp : prv k j ≠ i := by
          intro hc; apply hjn; rw [← hc, nxt_prv hk hj]
        simp only [history, sentOn, startStep, Proto.resolveBuffer, Proto.start, Proto.sent,
          Function.update_of_ne hji, Function.update_of_ne hjn, Function.update_of_ne hp] at hq ⊢
        exact hq
  · intro j hj hsj
    by_cases hji : j = i
    · subst hji; simp [startStep] at hsj
    · simp only [startStep, Function.update_of_ne hji] at hsj ⊢
      exact h.idle j hj hsj
  · intro j hj hsj
    by_cases hji : j = i
    · subst hji
      simp [startStep, Proto.resolveBuffer, Proto.start, Proto.sent, h2, h3, h4, h5]
      omega
    · simp only [startStep, Function.update_of_ne hji] at hsj ⊢
      exact h.active j hj hsj

theorem inv_arrive {k : Nat} {s : RingNet P} (h : Inv k s) {i : Nat} {m : RMsg P}
    {rest : List (RMsg P)} (hn : s.net i = m :: rest) : Inv k (arriveStep s i m rest) := by
  constructor
  · intro j hj
    have hq := h.count j hj
    change (history (arriveStep s i m rest) j).length = (sentOn k s (prv k j)).length
    rw [← hq]
    by_cases hji : j = i
    · subst hji
      simp [history, arriveStep, Function.update_self, hn]
    · simp [history, arriveStep, Function.update_of_ne hji]
  · exact h.idle
  · exact h.active

theorem handle_idle {k : Nat} {s : RingNet P} (h : Inv k s) {i : Nat} (hi : i < k) (m : RMsg P)
    (rest : List (RMsg P)) (hs : s.started i = false) :
    handleStep k s i m rest =
      { s with proto := Function.update s.proto i
                 { s.proto i with buffer := (s.proto i).buffer ++ [m] }
               mailbox := Function.update s.mailbox i rest } := by
  obtain ⟨a, b, c, d, e⟩ := h.idle i hi hs
  have : (s.proto i).isRunning = false := by simp [Proto.isRunning, a]
  simp [handleStep, Proto.received, this]

theorem processed_lt {k : Nat} (hk : 2 ≤ k) {s : RingNet P} (h : Inv k s) {i : Nat} (hi : i < k)
    {m : RMsg P} {rest : List (RMsg P)} (hm : s.mailbox i = m :: rest) :
    (s.processed i).length < k - 1 := by
  have := history_length hk h hi
  simp [history, hm] at this
  omega

/-- what `handleStep` does on a started node -/
theorem handle_active {k : Nat} (hk : 2 ≤ k) {s : RingNet P} (h : Inv k s) {i : Nat} (hi : i < k)
    {m : RMsg P} {rest : List (RMsg P)} (hm : s.mailbox i = m :: rest) (hs : s.started i = true) :
    handleStep k s i m rest =
      if (s.processed i).length + 1 < k - 1 then
        { s with
          proto := Function.update s.proto i
            (Proto.sent { s.proto i with nReceived := (s.proto i).nReceived + 1 })
          processed := Function.update s.processed i (s.processed i ++ [m])
          mailbox := Function.update s.mailbox i rest
          net := Function.update s.net (nxt k i) (s.net (nxt k i) ++ [m]) }
      else
        { s with
          proto := Function.update s.proto i
            { s.proto i with nReceived := (s.proto i).nReceived + 1 }
          processed := Function.update s.processed i (s.processed i ++ [m])
          mailbox := Function.update s.mailbox i rest
          done := Function.update s.done i (s.done i + 1) } := by
  obtain ⟨a, b, c, d, e⟩ := h.active i hi hs
  have hlt := processed_lt hk h hi hm
  have hr : (s.proto i).isRunning = true := by simp [Proto.isRunning, a, b, hlt]
  have hr2 : (Proto.isRunning { s.proto i with nReceived := (s.proto i).nReceived + 1 } = true) ↔
      (s.processed i).length + 1 < k - 1 := by
    simp only [Proto.isRunning, a, b, c, Bool.or_eq_true, decide_eq_true_eq]
    omega
  simp only [handleStep, Proto.received, hr, if_true, hr2]

theorem inv_handle {k : Nat} (hk : 2 ≤ k) {s : RingNet P} (h : Inv k s) {i : Nat} {m : RMsg P}
    {rest : List (RMsg P)} (hi : i < k) (hm : s.mailbox i = m :: rest) :
    Inv k (handleStep k s i m rest) := by
  have hne := nxt_ne hk hi
  by_cases hs : s.started i = true
  · obtain ⟨a, b, c, d, e⟩ := h.active i hi hs
    have hlt := processed_lt hk h hi hm
    rw [handle_active hk h hi hm hs]
    split
    · next hrun =>
      constructor
      · intro j hj
        have hq := h.count j hj
        by_cases hji : j = i
        · subst hji
          have hp := prv_ne hk hj
          simp only [history, sentOn, Proto.sent, Function.update_self, Function.update_of_ne hp,
            Function.update_of_ne hne.symm, hm, d] at hq ⊢
          rw [← hq]; simp only [List.length_append, List.length_cons, List.length_nil]; omega
        · by_cases hjn : j = nxt k i
          · subst hjn
            have hpn := prv_nxt hk hi
            rw [hpn] at hq ⊢
            simp only [history, sentOn, Function.update_self, Function.update_of_ne hne, hs,
              if_true] at hq ⊢
            simp only [List.length_append, List.length_cons, List.length_nil, List.length_take] at hq ⊢
            omega
          · have hp : prv k j ≠ i := by intro hc; apply hjn; rw [← hc, nxt_prv hk hj]
            simp only [history, sentOn, Function.update_of_ne hji, Function.update_of_ne hjn,
              Function.update_of_ne hp] at hq ⊢
            exact hq
      · intro j hj hsj
        by_cases hji : j = i
        · subst hji; simp [hs] at hsj
        · simp only [Function.update_of_ne hji]; exact h.idle j hj hsj
      · intro j hj hsj
        by_cases hji : j = i
        · subst hji
          simp only [Function.update_self, Proto.sent, List.length_append, List.length_singleton]
          refine ⟨a, by rw [b], by rw [c]; omega, d, ?_⟩
          rw [if_neg (by omega)] at e
          rw [if_neg (by omega)]; exact e
        · simp only [Function.update_of_ne hji]; exact h.active j hj hsj
    · next hrun =>
      constructor
      · intro j hj
        have hq := h.count j hj
        by_cases hji : j = i
        · subst hji
          have hp := prv_ne hk hj
          simp only [history, sentOn, Function.update_self, Function.update_of_ne hp, hm, d] at hq ⊢
          rw [← hq]; simp only [List.length_append, List.length_cons, List.length_nil]; omega
        · by_cases hjn : j = nxt k i
          · subst hjn
            have hpn := prv_nxt hk hi
            rw [hpn] at hq ⊢
            simp only [history, sentOn, Function.update_self, Function.update_of_ne hne, hs,
              if_true] at hq ⊢
            rw [List.take_append_of_le_length (by omega)]
            exact hq
          · have hp : prv k j ≠ i := by intro hc; apply hjn; rw [← hc, nxt_prv hk hj]
            simp only [history, sentOn, Function.update_of_ne hji,
              Function.update_of_ne hp] at hq ⊢
            exact hq
      · intro j hj hsj
        by_cases hji : j = i
        · subst hji; simp [hs] at hsj
        · simp only [Function.update_of_ne hji]; exact h.idle j hj hsj
      · intro j hj hsj
        by_cases hji : j = i
        · subst hji
          simp only [Function.update_self, List.length_append, List.length_singleton]
          refine ⟨a, by rw [b], by rw [c]; omega, d, ?_⟩
          rw [if_neg (by omega)] at e
          rw [if_pos (by omega)]; omega
        · simp only [Function.update_of_ne hji]; exact h.active j hj hsj
  · have hs : s.started i = false := by simpa using hs
    obtain ⟨a, b, c, d, e⟩ := h.idle i hi hs
    rw [handle_idle h hi m rest hs]
    constructor
    · intro j hj
      have hq := h.count j hj
      by_cases hji : j = i
      · subst hji
        simp only [history, sentOn, Function.update_self, hm] at hq ⊢
        rw [← hq]; simp only [List.length_append, List.length_cons, List.length_nil]; omega
      · simp only [history, sentOn, Function.update_of_ne hji] at hq ⊢
        exact hq
    · intro j hj hsj
      by_cases hji : j = i
      · subst hji; simpa using ⟨a, b, c, d, e⟩
      · simp only [Function.update_of_ne hji]; exact h.idle j hj hsj
    · intro j hj hsj
      by_cases hji : j = i
      · subst hji; simp [hs] at hsj
      · simp only [Function.update_of_ne hji]; exact h.active j hj hsj

/-- The invariant holds in all reachable states of all schedules. -/
theorem inv_reachable {b : Bool} {k : Nat} (hk : 2 ≤ k) {s : RingNet P} (h : Reachable b k s) : Inv k s := by
  induction h with
  | init pay => exact inv_init pay
  | step _ hstep ih =>
    cases hstep with
    | start i b hi hs hb => exact inv_start hk ih b hi hs
    | arrive i m rest hi hn => exact inv_arrive ih hn
    | handle i m rest hi hm => exact inv_handle hk ih hi hm

/-- Invariant of the benign schedules: the messages on the way to a node are those sent by its predecessor, in order. -/
def Queue (k : Nat) (s : RingNet P) : Prop := ∀ i < k, history s i = sentOn k s (prv k i)

theorem queue_start {k : Nat} (hk : 2 ≤ k) {s : RingNet P} (h : Inv k s) (q : Queue k s) {i : Nat} (b : P) (hi : i < k)
    (hs : s.started i = false) (hb : s.mailbox i = [] ∨ (s.proto i).buffer = []) :
    Queue k (startStep k s i b) := by
  obtain ⟨h1, h2, h3, h4, h5⟩ := h.idle i hi hs
  have hne := nxt_ne hk hi
  intro j hj
  have hq := q j hj
  by_cases hji : j = i
  · subst hji
    have hp := prv_ne hk hj
    simp only [history, sentOn, startStep, Proto.resolveBuffer, Proto.start, Proto.sent,
      Function.update_self, Function.update_of_ne hne.symm, Function.update_of_ne hp] at hq ⊢
    rw [← hq]
    rcases hb with hb | hb <;> simp [hb]
  · by_cases hjn : j = nxt k i
    · subst hjn
      have hpn := prv_nxt hk hi
      rw [hpn] at hq ⊢
      simp only [history, sentOn, hs] at hq
      simp only [history, sentOn, startStep, Proto.resolveBuffer, Proto.start, Proto.sent,
        Function.update_self, Function.update_of_ne hne, if_true, h4, List.take_nil]
      simp only [Bool.false_eq_true, if_false, List.append_eq_nil_iff] at hq
      simp [hq]
    · have hp : prv k j ≠ i := by
        intro hc; apply hjn; rw [← hc, nxt_prv hk hj]
      simp only [history, sentOn, startStep, Proto.resolveBuffer, Proto.start, Proto.sent,
        Function.update_of_ne hji, Function.update_of_ne hjn, Function.update_of_ne hp] at hq ⊢
      exact hq

theorem queue_arrive {k : Nat} {s : RingNet P} (q : Queue k s) {i : Nat} {m : RMsg P}
    {rest : List (RMsg P)} (hn : s.net i = m :: rest) : Queue k (arriveStep s i m rest) := by
  intro j hj
  have hq := q j hj
  change history (arriveStep s i m rest) j = sentOn k s (prv k j)
  rw [← hq]
  by_cases hji : j = i
  · subst hji
    simp [history, arriveStep, Function.update_self, hn]
  · simp [history, arriveStep, Function.update_of_ne hji]

theorem queue_handle {k : Nat} (hk : 2 ≤ k) {s : RingNet P} (h : Inv k s) (q : Queue k s) {i : Nat} {m : RMsg P}
    {rest : List (RMsg P)} (hi : i < k) (hm : s.mailbox i = m :: rest) :
    Queue k (handleStep k s i m rest) := by
  have hne := nxt_ne hk hi
  by_cases hs : s.started i = true
  · obtain ⟨a, b, c, d, e⟩ := h.active i hi hs
    have hlt := processed_lt hk h hi hm
    rw [handle_active hk h hi hm hs]
    split
    · next hrun =>
      · intro j hj
        have hq := q j hj
        by_cases hji : j = i
        · subst hji
          have hp := prv_ne hk hj
          simp only [history, sentOn, Proto.sent, Function.update_self, Function.update_of_ne hp,
            Function.update_of_ne hne.symm, hm, d] at hq ⊢
          rw [← hq]; simp
        · by_cases hjn : j = nxt k i
          · subst hjn
            have hpn := prv_nxt hk hi
            rw [hpn] at hq ⊢
            simp only [history, sentOn, Function.update_self, Function.update_of_ne hne, hs,
              if_true] at hq ⊢
            rw [List.take_of_length_le (by omega)] at hq
            rw [List.take_of_length_le (by simp; omega)]
            simp only [← List.append_assoc] at hq ⊢
            rw [hq]; simp
          · have hp : prv k j ≠ i := by intro hc; apply hjn; rw [← hc, nxt_prv hk hj]
            simp only [history, sentOn, Function.update_of_ne hji, Function.update_of_ne hjn,
              Function.update_of_ne hp] at hq ⊢
            exact hq
    · next hrun =>
      · intro j hj
        have hq := q j hj
        by_cases hji : j = i
        · subst hji
          have hp := prv_ne hk hj
          simp only [history, sentOn, Function.update_self, Function.update_of_ne hp, hm, d] at hq ⊢
          rw [← hq]; simp
        · by_cases hjn : j = nxt k i
          · subst hjn
            have hpn := prv_nxt hk hi
            rw [hpn] at hq ⊢
            simp only [history, sentOn, Function.update_self, Function.update_of_ne hne, hs,
              if_true] at hq ⊢
            rw [List.take_append_of_le_length (by omega)]
            exact hq
          · have hp : prv k j ≠ i := by intro hc; apply hjn; rw [← hc, nxt_prv hk hj]
            simp only [history, sentOn, Function.update_of_ne hji,
              Function.update_of_ne hp] at hq ⊢
            exact hq
  · have hs : s.started i = false := by simpa using hs
    obtain ⟨a, b, c, d, e⟩ := h.idle i hi hs
    rw [handle_idle h hi m rest hs]
    · intro j hj
      have hq := q j hj
      by_cases hji : j = i
      · subst hji
        simp only [history, sentOn, Function.update_self, hm] at hq ⊢
        rw [← hq]; simp
      · simp only [history, sentOn, Function.update_of_ne hji] at hq ⊢
        exact hq
theorem queue_reachable {k : Nat} (hk : 2 ≤ k) {s : RingNet P} (h : Reachable true k s) : Queue k s := by
  induction h with
  | init pay => intro i _; simp [init, history, sentOn]
  | step hr hstep ih =>
    have hI := inv_reachable hk hr
    cases hstep with
    | start i b hi hs hb => exact queue_start hk hI ih b hi hs (hb rfl)
    | arrive i m rest hi hn => exact queue_arrive ih hn
    | handle i m rest hi hm => exact queue_handle hk hI ih hi hm

/-- The `j`-th message on the link out of node `i` originates from the node `j` positions before `i`. -/
theorem sentOn_origin {k : Nat} (hk : 2 ≤ k) {s : RingNet P} (q : Queue k s) :
    ∀ j i : Nat, i < k → ∀ m, (sentOn k s i)[j]? = some m →
      s.started ((i + k - j) % k) = true ∧
        m = ⟨(i + k - j) % k, s.pay ((i + k - j) % k)⟩ := by
  intro j
  induction j with
  | zero =>
    intro i hi m hm
    have e : (i + k - 0) % k = i := by
      rw [Nat.sub_zero, Nat.add_mod_right]; exact Nat.mod_eq_of_lt hi
    rw [e]
    unfold sentOn at hm
    split at hm
    · next hs => simp at hm; exact ⟨hs, hm.symm⟩
    · simp at hm
  | succ j ih =>
    intro i hi m hm
    have hjlt : j + 1 < k - 1 := by
      have h1 := (List.getElem?_eq_some_iff.1 hm).1
      have h2 := sentOn_length hk s i
      omega
    unfold sentOn at hm
    split at hm
    · next hs =>
      rw [List.getElem?_cons_succ] at hm
      have hm' : (s.processed i)[j]? = some m := by
        rw [List.getElem?_take] at hm
        split at hm
        · exact hm
        · simp at hm
      have hq := q i hi
      have : (history s i)[j]? = some m := by
        unfold history
        rw [List.getElem?_append_left (List.getElem?_eq_some_iff.1 hm').1]
        exact hm'
      rw [hq] at this
      have := ih (prv k i) (prv_lt hk) m this
      have e : (prv k i + k - j) % k = (i + k - (j + 1)) % k := by
        rw [prv_eq hi]
        split
        · next h0 =>
          subst h0
          rw [show k - 1 + k - j = (0 + k - (j + 1)) + k by omega, Nat.add_mod_right]
        · congr 1; omega
      rw [e] at this
      exact this
    · simp at hm

/-- C18a (safety): in every benign schedule a node processes the contributions of its predecessors in ring
order: the `j`-th processed message is the own contribution of the node `j+1` positions before it. -/
theorem C18_processing_order {k : Nat} (hk : 2 ≤ k) {s : RingNet P}
    (h : Reachable true k s) {i j : Nat} (hi : i < k) {m : RMsg P}
    (hm : (s.processed i)[j]? = some m) :
    m.origin = (i + k - (j + 1)) % k ∧ m.body = s.pay m.origin := by
  have hI := inv_reachable hk h
  have hQ := queue_reachable hk h
  have hq := hQ i hi
  have h1 : (history s i)[j]? = some m := by
    unfold history
    rw [List.getElem?_append_left (List.getElem?_eq_some_iff.1 hm).1]
    exact hm
  rw [hq] at h1
  have hj : j < k - 1 := by
    have := (List.getElem?_eq_some_iff.1 h1).1
    have := sentOn_length hk s (prv k i)
    omega
  have h2 := (sentOn_origin hk hQ j (prv k i) (prv_lt hk) m h1).2
  have e : (prv k i + k - j) % k = (i + k - (j + 1)) % k := by
    rw [prv_eq hi]
    split
    · next h0 =>
      subst h0
      rw [show k - 1 + k - j = (0 + k - (j + 1)) + k by omega, Nat.add_mod_right]
    · congr 1; omega
  rw [e] at h2
  subst h2
  exact ⟨rfl, rfl⟩

/-- C18b (safety): in every benign schedule completion is announced at most once, and a node which announced it
has processed the contribution of every other node exactly once and never its own. -/
theorem C18_rotation_complete {k : Nat} (hk : 2 ≤ k) {s : RingNet P}
    (h : Reachable true k s) {i : Nat} (hi : i < k) :
    s.done i ≤ 1 ∧
    (s.done i = 1 → (s.processed i).Perm
      ((DirectNet.peers false k i).map (fun j => RMsg.mk j (s.pay j)))) := by
  have hI := inv_reachable hk h
  by_cases hs : s.started i = true
  · obtain ⟨a, b, c, d, e⟩ := hI.active i hi hs
    refine ⟨by rw [e]; split <;> omega, fun hd => ?_⟩
    have hlen : (s.processed i).length = k - 1 := by
      by_contra hcon; rw [if_neg hcon] at e; omega
    have hget : ∀ j, (hj : j < (s.processed i).length) →
        (s.processed i)[j] = RMsg.mk ((i + k - (j + 1)) % k) (s.pay ((i + k - (j + 1)) % k)) := by
      intro j hj
      have := C18_processing_order hk h hi (List.getElem?_eq_getElem hj)
      generalize (s.processed i)[j] = m at this ⊢
      obtain ⟨o, bd⟩ := m
      simp at this; obtain ⟨rfl, rfl⟩ := this; rfl
    have emod : ∀ j, j < k - 1 → (i + k - (j + 1)) % k = if j + 1 ≤ i then i - (j + 1) else i + k - (j + 1) := by
      intro j hj
      split
      · rw [show i + k - (j + 1) = (i - (j + 1)) + k by omega, Nat.add_mod_right]
        exact Nat.mod_eq_of_lt (by omega)
      · exact Nat.mod_eq_of_lt (by omega)
    have hform : s.processed i = ((List.range (k - 1)).map (fun j => (i + k - (j + 1)) % k)).map
        (fun j => RMsg.mk j (s.pay j)) := by
      apply List.ext_getElem
      · simp [hlen]
      · intro j h1 h2
        rw [hget j h1]; simp
    rw [hform]
    apply List.Perm.map
    refine (List.perm_ext_iff_of_nodup ?_ DirectNet.nodup_peers).2 ?_
    · refine List.Nodup.map_on ?_ List.nodup_range
      intro x hx y hy hxy
      rw [List.mem_range] at hx hy
      rw [emod x hx, emod y hy] at hxy
      split at hxy <;> split at hxy <;> omega
    · intro j
      simp only [List.mem_map, List.mem_range, DirectNet.mem_peers]
      constructor
      · rintro ⟨x, hx, rfl⟩
        rw [emod x hx]
        refine ⟨by split <;> omega, Or.inr (by split <;> omega)⟩
      · rintro ⟨hj, hj2⟩
        have hj2 : j ≠ i := by simpa using hj2
        by_cases hji : j < i
        · refine ⟨i - j - 1, by omega, ?_⟩
          rw [emod _ (by omega)]; split <;> omega
        · refine ⟨i + k - j - 1, by omega, ?_⟩
          rw [emod _ (by omega)]; split <;> omega
  · have hs : s.started i = false := by simpa using hs
    obtain ⟨a, b, c, d, e⟩ := hI.idle i hi hs
    exact ⟨by omega, fun h => by omega⟩

/-- C18 (every schedule): a node announces completion at most once, when it has processed `k - 1` contributions, and it is
running from its start until then. -/
theorem C18_done_once {b : Bool} {k : Nat} (hk : 2 ≤ k) {s : RingNet P} (h : Reachable b k s) {i : Nat} (hi : i < k) :
    s.done i ≤ 1 ∧ (s.done i = 1 ↔ s.started i = true ∧ (s.processed i).length = k - 1) ∧
    ((s.proto i).isRunning = true ↔ s.started i = true ∧ s.done i = 0) := by
  have hI := inv_reachable hk h
  by_cases hs : s.started i = true
  · obtain ⟨a, b, c, d, e⟩ := hI.active i hi hs
    have hl := history_length hk hI hi
    simp only [history, List.length_append] at hl
    refine ⟨by rw [e]; split <;> omega, ⟨fun h1 => ⟨hs, ?_⟩, fun h1 => by rw [e, if_pos h1.2]⟩, ?_⟩
    · by_contra hcon
      rw [if_neg hcon] at e
      omega
    · simp only [Proto.isRunning, a, b, c, Bool.or_eq_true, decide_eq_true_eq, hs, true_and, e]
      split <;> omega
  · have hs : s.started i = false := by simpa using hs
    obtain ⟨a, b, c, d, e⟩ := hI.idle i hi hs
    simp [hs, e, Proto.isRunning, a]

/-- C18c (progress, every schedule): when all nodes entered the stage and nothing is in flight, every
node has announced completion. -/
theorem C18_quiescent_done {b : Bool} {k : Nat} (hk : 2 ≤ k) {s : RingNet P} (h : Reachable b k s)
    (hall : ∀ i < k, s.started i = true) (hq : ∀ i < k, s.mailbox i = [] ∧ s.net i = [])
    {i : Nat} (hi : i < k) : s.done i = 1 := by
  have hI := inv_reachable hk h
  have hlen : ∀ j i, i < k → min j (k - 1) ≤ (s.processed i).length := by
    intro j
    induction j with
    | zero => intro i _; omega
    | succ j ih =>
      intro i hi
      have h1 := hI.count i hi
      obtain ⟨h2, h3⟩ := hq i hi
      have h4 := (hI.active i hi (hall i hi)).2.2.2.1
      simp only [history, h2, h3, h4, List.append_nil, sentOn,
        hall _ (prv_lt hk), if_true, List.length_cons, List.length_take] at h1
      have := ih (prv k i) (prv_lt hk)
      omega
  have h1 := hlen (k - 1) i hi
  obtain ⟨_, _, _, _, e⟩ := hI.active i hi (hall i hi)
  have h2 := history_length hk hI hi
  simp [history] at h2
  rw [e, if_pos (by omega)]

/-- Weighted work left on the ring. -/
def remaining (k : Nat) (s : RingNet P) : Nat :=
  ((List.range k).map (fun i =>
    (if s.started i then 0 else 3 * k) + 3 * (k - 1 - (s.processed i).length) +
    ((s.proto i).buffer.length + 2 * (s.mailbox i).length))).sum +
  ((List.range k).map (fun i => 3 * (s.net i).length)).sum

/-- C18c' (termination): every step of every schedule strictly decreases the work left. -/
theorem C18_terminates {b : Bool} {k : Nat} (hk : 2 ≤ k) {s t : RingNet P} (h : Reachable b k s)
    (hst : Step b k s t) : remaining k t < remaining k s := by
  have hI := inv_reachable hk h
  cases hst with
  | start i b hi hs hb =>
    have hne := nxt_ne hk hi
    have hb := history_length hk hI hi
    simp only [history, List.length_append] at hb
    have k1 := DirectNet.sum_range_update
      (fun j => (if (startStep k s i b).started j then 0 else 3 * k) +
        3 * (k - 1 - ((startStep k s i b).processed j).length) +
        (((startStep k s i b).proto j).buffer.length + 2 * ((startStep k s i b).mailbox j).length))
      (fun j => (if s.started j then 0 else 3 * k) + 3 * (k - 1 - (s.processed j).length) +
        ((s.proto j).buffer.length + 2 * (s.mailbox j).length)) i
      (by intro j hj; simp [startStep, Function.update_of_ne hj]) k hi
    have k2 := DirectNet.sum_range_update
      (fun j => 3 * ((startStep k s i b).net j).length) (fun j => 3 * (s.net j).length) (nxt k i)
      (by intro j hj; simp [startStep, Function.update_of_ne hj]) k (nxt_lt hk)
    unfold remaining
    simp only [startStep, Proto.resolveBuffer, Proto.start, Proto.sent, Function.update_self, hs,
      List.length_append, List.length_nil, List.length_singleton, if_true, Bool.false_eq_true,
      if_false] at k1 k2 ⊢
    omega
  | arrive i m rest hi hn =>
    have e1 : (arriveStep s i m rest).started = s.started := rfl
    have e2 : (arriveStep s i m rest).processed = s.processed := rfl
    have e3 : (arriveStep s i m rest).proto = s.proto := rfl
    have k1 := DirectNet.sum_range_update
      (fun j => (if s.started j then 0 else 3 * k) + 3 * (k - 1 - (s.processed j).length) +
        ((s.proto j).buffer.length + 2 * ((arriveStep s i m rest).mailbox j).length))
      (fun j => (if s.started j then 0 else 3 * k) + 3 * (k - 1 - (s.processed j).length) +
        ((s.proto j).buffer.length + 2 * (s.mailbox j).length)) i
      (by intro j hj; simp [arriveStep, Function.update_of_ne hj]) k hi
    have k2 := DirectNet.sum_range_update
      (fun j => 3 * ((arriveStep s i m rest).net j).length) (fun j => 3 * (s.net j).length) i
      (by intro j hj; simp [arriveStep, Function.update_of_ne hj]) k hi
    unfold remaining
    simp only [e1, e2, e3]
    have e4 : ((arriveStep s i m rest).mailbox i).length = (s.mailbox i).length + 1 := by
      simp [arriveStep]
    have e5 : ((arriveStep s i m rest).net i).length + 1 = (s.net i).length := by
      simp [arriveStep, hn]
    rw [e4] at k1
    omega
  | handle i m rest hi hm =>
    have hne := nxt_ne hk hi
    have hlt := processed_lt hk hI hi hm
    have hother : ∀ j, j ≠ i → (handleStep k s i m rest).started j = s.started j ∧
        (handleStep k s i m rest).processed j = s.processed j ∧
        (handleStep k s i m rest).proto j = s.proto j ∧
        (handleStep k s i m rest).mailbox j = s.mailbox j := by
      intro j hj
      by_cases hs : s.started i = true
      · rw [handle_active hk hI hi hm hs]; split <;> simp [Function.update_of_ne hj]
      · rw [handle_idle hI hi m rest (by simpa using hs)]; simp [Function.update_of_ne hj]
    have hothern : ∀ j, j ≠ nxt k i → (handleStep k s i m rest).net j = s.net j := by
      intro j hj
      by_cases hs : s.started i = true
      · rw [handle_active hk hI hi hm hs]; split <;> simp [Function.update_of_ne hj]
      · rw [handle_idle hI hi m rest (by simpa using hs)]
    have k1 := DirectNet.sum_range_update
      (fun j => (if (handleStep k s i m rest).started j then 0 else 3 * k) +
        3 * (k - 1 - ((handleStep k s i m rest).processed j).length) +
        (((handleStep k s i m rest).proto j).buffer.length +
          2 * ((handleStep k s i m rest).mailbox j).length))
      (fun j => (if s.started j then 0 else 3 * k) + 3 * (k - 1 - (s.processed j).length) +
        ((s.proto j).buffer.length + 2 * (s.mailbox j).length)) i
      (by intro j hj; obtain ⟨h1, h2, h3, h4⟩ := hother j hj; simp only [h1, h2, h3, h4]) k hi
    have k2 := DirectNet.sum_range_update
      (fun j => 3 * ((handleStep k s i m rest).net j).length) (fun j => 3 * (s.net j).length)
      (nxt k i) (by intro j hj; simp only [hothern j hj]) k (nxt_lt hk)
    unfold remaining
    by_cases hs : s.started i = true
    · rw [handle_active hk hI hi hm hs] at k1 k2 ⊢
      split at k1
      · next hr =>
        rw [if_pos hr] at k2
        rw [if_pos hr]
        simp only [Function.update_self, Proto.sent, hm, List.length_append, List.length_cons,
          List.length_nil] at k1 k2 ⊢
        omega
      · next hr =>
        rw [if_neg hr] at k2
        rw [if_neg hr]
        simp only [Function.update_self, hm, List.length_append, List.length_cons,
          List.length_nil] at k1 k2 ⊢
        omega
    · rw [handle_idle hI hi m rest (by simpa using hs)] at k1 k2 ⊢
      simp only [Function.update_self, hm, List.length_append, List.length_cons,
          List.length_nil] at k1 k2 ⊢
      omega

/-! ## Two nodes: the side condition is always met -/

/-- C18d: with two nodes every schedule of the code is benign, so all of the above holds without side condition. -/
theorem C18_two_nodes {s : RingNet P} (h : Reachable false 2 s) : Reachable true 2 s := by
  induction h with
  | init pay => exact .init pay
  | step _ hstep ih =>
    cases hstep with
    | start i b hi hs hb =>
      refine .step ih (.start _ i b hi hs (fun _ => ?_))
      have := history_length (le_refl 2) (inv_reachable (le_refl 2) ih) hi
      simp only [history, List.length_append] at this
      by_contra hcon
      push Not at hcon
      have h1 := List.length_pos_iff.2 hcon.1
      have h2 := List.length_pos_iff.2 hcon.2
      omega
    | arrive i m rest hi hn => exact .step ih (.arrive _ i m rest hi hn)
    | handle i m rest hi hm => exact .step ih (.handle _ i m rest hi hm)

/-! ## Three nodes: the race -/

/-- actions of a concrete schedule -/
inductive Act (P : Type) | start (i : Nat) (b : P) | arrive (i : Nat) | handle (i : Nat)

/-- execute one action if it is enabled -/
def act (k : Nat) (s : RingNet P) : Act P → Option (RingNet P)
  | .start i b => if i < k ∧ s.started i = false then some (startStep k s i b) else none
  | .arrive i => if i < k then
      match s.net i with
      | m :: rest => some (arriveStep s i m rest)
      | [] => none
    else none
  | .handle i => if i < k then
      match s.mailbox i with
      | m :: rest => some (handleStep k s i m rest)
      | [] => none
    else none

def exec (k : Nat) (s : RingNet P) : List (Act P) → Option (RingNet P)
  | [] => some s
  | a :: as => (act k s a).bind (fun t => exec k t as)

theorem exec_reachable {k : Nat} {s t : RingNet P} (as : List (Act P)) (h : Reachable false k s)
    (he : exec k s as = some t) : Reachable false k t := by
  induction as generalizing s with
  | nil => simp [exec] at he; subst he; exact h
  | cons a as ih =>
    simp only [exec] at he
    cases ha : act k s a with
    | none => simp [ha] at he
    | some u =>
      rw [ha] at he
      refine ih (.step h ?_) he
      cases a with
      | start i b =>
        simp only [act] at ha
        split at ha
        · next hc =>
          simp only [Option.some.injEq] at ha; subst ha
          exact .start s i b hc.1 hc.2 (by simp)
        · simp at ha
      | arrive i =>
        simp only [act] at ha
        split at ha
        · next hc =>
          split at ha
          · next m rest hm =>
            simp only [Option.some.injEq] at ha; subst ha
            exact .arrive s i m rest hc hm
          · simp at ha
        · simp at ha
      | handle i =>
        simp only [act] at ha
        split at ha
        · next hc =>
          split at ha
          · next m rest hm =>
            simp only [Option.some.injEq] at ha; subst ha
            exact .handle s i m rest hc hm
          · simp at ha
        · simp at ha

/-- The schedule: node 1 buffers the contribution of node 0, and the contribution of node 2 (forwarded by
node 0) is already in its mailbox when it enters the stage. -/
def raceSchedule : List (Act Nat) :=
  [.start 0 100, .arrive 1, .handle 1, .start 2 1, .arrive 0, .handle 0, .arrive 1, .start 1 10,
   .handle 1, .handle 1, .arrive 2, .handle 2, .arrive 2, .handle 2, .arrive 0, .handle 0]

/-- C18e (counterexample): a schedule of three nodes in which all nodes announce completion exactly once and nothing
is in flight, but node 2 has processed its own contribution and never saw the one of node 0. -/
theorem C18_counterexample : ∃ s : RingNet Nat, Reachable false 3 s ∧
    (∀ i < 3, s.done i = 1 ∧ s.mailbox i = [] ∧ s.net i = []) ∧
    (s.processed 2).map RMsg.origin = [1, 2] := by
  have h : ∃ s, exec 3 (init (fun _ => 0)) raceSchedule = some s := by
    rw [← Option.isSome_iff_exists]; rfl
  obtain ⟨s, hs⟩ := h
  have key : ((exec 3 (init (fun _ => 0)) raceSchedule).map (fun s =>
      (s.done 0, s.done 1, s.done 2, s.mailbox 0, s.mailbox 1, s.mailbox 2))) =
      some (1, 1, 1, [], [], []) := rfl
  have key2 : ((exec 3 (init (fun _ => 0)) raceSchedule).map (fun s =>
      (s.net 0, s.net 1, s.net 2, (s.processed 2).map RMsg.origin))) =
      some ([], [], [], [1, 2]) := rfl
  rw [hs] at key key2
  simp only [Option.map_some, Option.some.injEq, Prod.mk.injEq] at key key2
  refine ⟨s, exec_reachable _ (.init _) hs, ?_, key2.2.2.2⟩
  intro i hi
  match i, hi with
  | 0, _ => exact ⟨key.1, key.2.2.2.1, key2.1⟩
  | 1, _ => exact ⟨key.2.1, key.2.2.2.2.1, key2.2.1⟩
  | 2, _ => exact ⟨key.2.2.1, key.2.2.2.2.2, key2.2.2.1⟩

/-- A benign schedule of three nodes that runs to completion (the hypotheses of the theorems above are met). -/
example : (exec 3 (init (fun _ => 0))
    [.start 0 100, .start 1 10, .start 2 1, .arrive 0, .arrive 1, .arrive 2, .handle 0, .handle 1,
     .handle 2, .arrive 0, .arrive 1, .arrive 2, .handle 0, .handle 1, .handle 2]).map
    (fun s => ((s.processed 0).map RMsg.origin, (s.processed 1).map RMsg.origin,
      (s.processed 2).map RMsg.origin)) = some ([2, 1], [0, 2], [1, 0]) := by decide

end RingNet
end S2G
