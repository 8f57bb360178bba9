import Verif.Props.Ring

/-!
# C18: what exactly the re-sending of early messages does

`Traced k f s`: `s` is reachable, and `f i` are the numbers of buffered and of waiting messages when node `i` entered the stage.

* `C18_exact_order`: in every schedule, the order in which a node processes the messages of its predecessor is determined by
  these two numbers: the waiting messages are processed before the buffered ones, everything else in the order of the link.
* `C18_correct_iff`: for every cluster size, the rotation is right exactly if no node had both kinds of messages.
-/

namespace S2G
namespace RingNet
variable {P : Type}

/-- Specification: of the first `b + w` elements the last `w` come first. -/
def reorder {α : Type} (b w : Nat) (l : List α) : List α := (l.drop b).take w ++ (l.take b ++ l.drop (b + w))

theorem reorder_append {α : Type} {b w : Nat} {l : List α} (h : b + w ≤ l.length) (r : List α) :
    reorder b w (l ++ r) = reorder b w l ++ r := by
  unfold reorder
  rw [List.drop_append_of_le_length (by omega), List.take_append_of_le_length (by simp; omega),
    List.take_append_of_le_length (by omega), List.drop_append_of_le_length (by omega)]
  simp

theorem reorder_trivial {α : Type} {b w : Nat} (h : b = 0 ∨ w = 0) (l : List α) : reorder b w l = l := by
  rcases h with rfl | rfl <;> simp [reorder]

theorem reorder_perm {α : Type} (b w : Nat) (l : List α) : (reorder b w l).Perm l := by
  unfold reorder
  rw [← List.append_assoc]
  refine (List.perm_append_comm.append_right _).trans ?_
  rw [List.append_assoc]
  have : (l.drop b).take w ++ l.drop (b + w) = l.drop b := by
    rw [← List.drop_drop, List.take_append_drop]
  rw [this, List.take_append_drop]

/-- Executions of the code, with the numbers of buffered and of waiting messages of every node when it entered the stage. -/
inductive Traced (k : Nat) : (Nat → Nat × Nat) → RingNet P → Prop
  | init (pay) : Traced k (fun _ => (0, 0)) (init pay)
  | start {f s} (h : Traced k f s) (i : Nat) (b : P) (hi : i < k) (hs : s.started i = false) :
      Traced k (Function.update f i ((s.proto i).buffer.length, (s.mailbox i).length)) (startStep k s i b)
  | arrive {f s} (h : Traced k f s) (i : Nat) (m : RMsg P) (rest : List (RMsg P)) (hi : i < k)
      (hn : s.net i = m :: rest) : Traced k f (arriveStep s i m rest)
  | handle {f s} (h : Traced k f s) (i : Nat) (m : RMsg P) (rest : List (RMsg P)) (hi : i < k)
      (hm : s.mailbox i = m :: rest) : Traced k f (handleStep k s i m rest)

/-- Every traced execution is one of the code, and the other way round. -/
theorem traced_iff {k : Nat} {s : RingNet P} : (∃ f, Traced k f s) ↔ Reachable false k s := by
  constructor
  · rintro ⟨f, h⟩
    induction h with
    | init pay => exact .init pay
    | start _ i b hi hs ih => exact .step ih (.start _ i b hi hs (by simp))
    | arrive _ i m rest hi hn ih => exact .step ih (.arrive _ i m rest hi hn)
    | handle _ i m rest hi hm ih => exact .step ih (.handle _ i m rest hi hm)
  · intro h
    induction h with
    | init pay => exact ⟨_, .init pay⟩
    | step _ hst ih =>
      obtain ⟨f, hf⟩ := ih
      cases hst with
      | start i b hi hs hb => exact ⟨_, .start hf i b hi hs⟩
      | arrive i m rest hi hn => exact ⟨_, .arrive hf i m rest hi hn⟩
      | handle i m rest hi hm => exact ⟨_, .handle hf i m rest hi hm⟩

/-- The order in which node `i` gets the messages of its predecessor. -/
structure Order (k : Nat) (f : Nat → Nat × Nat) (s : RingNet P) : Prop where
  idle : ∀ i < k, s.started i = false → f i = (0, 0)
  bound : ∀ i < k, (f i).1 + (f i).2 ≤ (sentOn k s (prv k i)).length
  order : ∀ i < k, history s i = reorder (f i).1 (f i).2 (sentOn k s (prv k i))

theorem order_start {k : Nat} (hk : 2 ≤ k) {f : Nat → Nat × Nat} {s : RingNet P} (h : Inv k s) (q : Order k f s) {i : Nat}
    (b : P) (hi : i < k) (hs : s.started i = false) :
    Order k (Function.update f i ((s.proto i).buffer.length, (s.mailbox i).length)) (startStep k s i b) := by
  obtain ⟨h1, h2, h3, h4, h5⟩ := h.idle i hi hs
  have hne := nxt_ne hk hi
  have hlink : ∀ j < k, j ≠ nxt k i → sentOn k (startStep k s i b) (prv k j) = sentOn k s (prv k j) := by
    intro j hj hjn
    have hp : prv k j ≠ i := by
      intro hc; apply hjn; rw [← hc, nxt_prv hk hj]
    simp only [sentOn, startStep, Function.update_of_ne hp]
  have hin : sentOn k s i = [] := by simp [sentOn, hs]
  refine ⟨?_, ?_, ?_⟩
  · intro j hj hsj
    by_cases hji : j = i
    · subst hji; simp [startStep] at hsj
    · rw [Function.update_of_ne hji]
      exact q.idle j hj (by simpa [startStep, Function.update_of_ne hji] using hsj)
  · intro j hj
    by_cases hji : j = i
    · subst hji
      rw [hlink j hj hne.symm, Function.update_self]
      have := congrArg List.length (q.order j hj)
      rw [q.idle j hj hs, reorder_trivial (by simp)] at this
      simp only [history, h4, List.nil_append, List.length_append] at this
      omega
    · rw [Function.update_of_ne hji]
      by_cases hjn : j = nxt k i
      · subst hjn
        have := q.bound _ hj
        rw [prv_nxt hk hi, hin] at this
        simp only [List.length_nil] at this
        omega
      · rw [hlink j hj hjn]; exact q.bound j hj
  · intro j hj
    by_cases hji : j = i
    · subst hji
      rw [hlink j hj hne.symm, Function.update_self]
      have hq := q.order j hj
      rw [q.idle j hj hs, reorder_trivial (by simp)] at hq
      rw [← hq]
      simp only [history, startStep, Proto.resolveBuffer, Proto.start, Proto.sent, Function.update_self,
        Function.update_of_ne hne.symm, h4, List.nil_append, reorder]
      rw [← List.drop_drop, List.drop_left, List.take_left, List.take_left, List.drop_left, List.append_assoc]
    · rw [Function.update_of_ne hji]
      by_cases hjn : j = nxt k i
      · subst hjn
        have hq := q.order _ hj
        have hb := q.bound _ hj
        rw [prv_nxt hk hi] at hq hb ⊢
        rw [hin] at hq hb
        simp only [List.length_nil] at hb
        have hz : (f (nxt k i)).1 = 0 := by omega
        rw [reorder_trivial (Or.inl hz)] at hq ⊢
        simp only [history, List.append_eq_nil_iff] at hq
        simp [history, sentOn, startStep, Function.update_of_ne hne, hq, h4]
      · rw [hlink j hj hjn, ← q.order j hj]
        simp only [history, startStep, Function.update_of_ne hji, Function.update_of_ne hjn]

theorem order_arrive {k : Nat} {f : Nat → Nat × Nat} {s : RingNet P} (q : Order k f s) {i : Nat} {m : RMsg P}
    {rest : List (RMsg P)} (hn : s.net i = m :: rest) : Order k f (arriveStep s i m rest) := by
  refine ⟨q.idle, q.bound, ?_⟩
  intro j hj
  change history (arriveStep s i m rest) j = reorder (f j).1 (f j).2 (sentOn k s (prv k j))
  rw [← q.order j hj]
  by_cases hji : j = i
  · subst hji
    simp [history, arriveStep, Function.update_self, hn]
  · simp [history, arriveStep, Function.update_of_ne hji]

theorem order_handle {k : Nat} (hk : 2 ≤ k) {f : Nat → Nat × Nat} {s : RingNet P} (h : Inv k s) (q : Order k f s) {i : Nat}
    {m : RMsg P} {rest : List (RMsg P)} (hi : i < k) (hm : s.mailbox i = m :: rest) :
    Order k f (handleStep k s i m rest) := by
  have hne := nxt_ne hk hi
  by_cases hs : s.started i = true
  · obtain ⟨a, b, c, d, e⟩ := h.active i hi hs
    have hlt := processed_lt hk h hi hm
    rw [handle_active hk h hi hm hs]
    split
    · next hrun =>
      have hout : ∀ j < k, sentOn k { s with
            proto := Function.update s.proto i (Proto.sent { s.proto i with nReceived := (s.proto i).nReceived + 1 })
            processed := Function.update s.processed i (s.processed i ++ [m])
            mailbox := Function.update s.mailbox i rest
            net := Function.update s.net (nxt k i) (s.net (nxt k i) ++ [m]) } (prv k j) =
          sentOn k s (prv k j) ++ if j = nxt k i then [m] else [] := by
        intro j hj
        by_cases hjn : j = nxt k i
        · subst hjn
          rw [prv_nxt hk hi]
          simp only [sentOn, hs, if_true, Function.update_self]
          rw [List.take_of_length_le (by simp; omega), List.take_of_length_le (by omega)]
          simp
        · have hp : prv k j ≠ i := by intro hc; apply hjn; rw [← hc, nxt_prv hk hj]
          simp [sentOn, Function.update_of_ne hp, hjn]
      refine ⟨q.idle, fun j hj => by rw [hout j hj, List.length_append]; have := q.bound j hj; omega, ?_⟩
      intro j hj
      rw [hout j hj, reorder_append (q.bound j hj), ← q.order j hj]
      by_cases hji : j = i
      · subst hji
        rw [if_neg hne.symm]
        simp [history, Proto.sent, Function.update_self, Function.update_of_ne hne.symm, hm, d]
      · by_cases hjn : j = nxt k i
        · subst hjn
          simp [history, Function.update_of_ne hne]
        · simp [history, Function.update_of_ne hji, hjn]
    · next hrun =>
      have hout : ∀ j < k, sentOn k { s with
            proto := Function.update s.proto i { s.proto i with nReceived := (s.proto i).nReceived + 1 }
            processed := Function.update s.processed i (s.processed i ++ [m])
            mailbox := Function.update s.mailbox i rest
            done := Function.update s.done i (s.done i + 1) } (prv k j) = sentOn k s (prv k j) := by
        intro j hj
        by_cases hp : prv k j = i
        · rw [hp]
          simp only [sentOn, hs, if_true, Function.update_self]
          rw [List.take_append_of_le_length (by omega)]
        · simp [sentOn, Function.update_of_ne hp]
      refine ⟨q.idle, fun j hj => by rw [hout j hj]; exact q.bound j hj, ?_⟩
      intro j hj
      rw [hout j hj, ← q.order j hj]
      by_cases hji : j = i
      · subst hji
        simp [history, Function.update_self, hm, d]
      · simp [history, Function.update_of_ne hji]
  · have hs : s.started i = false := by simpa using hs
    obtain ⟨a, b, c, d, e⟩ := h.idle i hi hs
    rw [handle_idle h hi m rest hs]
    refine ⟨q.idle, q.bound, ?_⟩
    intro j hj
    have hq := q.order j hj
    refine Eq.trans ?_ hq
    by_cases hji : j = i
    · subst hji
      simp [history, Function.update_self, hm]
    · simp [history, Function.update_of_ne hji]

theorem traced_inv {k : Nat} (hk : 2 ≤ k) {f : Nat → Nat × Nat} {s : RingNet P} (h : Traced k f s) : Inv k s ∧ Order k f s := by
  refine ⟨inv_reachable hk (traced_iff.1 ⟨f, h⟩), ?_⟩
  induction h with
  | init pay =>
    exact ⟨fun _ _ _ => rfl, fun _ _ => by simp, fun i _ => by simp [init, history, sentOn, reorder]⟩
  | start h i b hi hs ih => exact order_start hk (inv_reachable hk (traced_iff.1 ⟨_, h⟩)) ih b hi hs
  | arrive h i m rest hi hn ih => exact order_arrive ih hn
  | handle h i m rest hi hm ih => exact order_handle hk (inv_reachable hk (traced_iff.1 ⟨_, h⟩)) ih hi hm

/-- Once announced, a node has processed `k - 1` messages and nothing else is on the way to it. -/
theorem done_history {k : Nat} (hk : 2 ≤ k) {s : RingNet P} (h : Inv k s) {i : Nat} (hi : i < k) (hd : s.done i = 1) :
    s.started i = true ∧ (s.processed i).length = k - 1 ∧ history s i = s.processed i := by
  by_cases hs : s.started i = true
  · obtain ⟨a, b, c, d, e⟩ := h.active i hi hs
    have hlen : (s.processed i).length = k - 1 := by
      by_contra hcon; rw [if_neg hcon] at e; omega
    refine ⟨hs, hlen, ?_⟩
    have hl := history_length hk h hi
    simp only [history, List.length_append] at hl
    simp only [history]
    rw [List.length_eq_zero_iff.1 (by omega : (s.proto i).buffer.length = 0),
      List.length_eq_zero_iff.1 (by omega : (s.mailbox i).length = 0),
      List.length_eq_zero_iff.1 (by omega : (s.net i).length = 0)]
    simp
  · obtain ⟨_, _, _, _, e⟩ := h.idle i hi (by simpa using hs)
    omega

/-- C18 (exact order, every schedule, every cluster size): let node `i` have had `b` buffered and `w` waiting messages when it
entered the stage. When it has announced completion, it has processed its predecessor's own contribution and the first `k - 2`
messages its predecessor has processed, except that the elements `b`, ..., `b + w - 1` of this list came first. -/
theorem C18_exact_order {k : Nat} (hk : 2 ≤ k) {f : Nat → Nat × Nat} {s : RingNet P} (h : Traced k f s) {i : Nat} (hi : i < k)
    (hd : s.done i = 1) (hst : s.started (prv k i) = true) :
    s.processed i = reorder (f i).1 (f i).2 (⟨prv k i, s.pay (prv k i)⟩ :: (s.processed (prv k i)).take (k - 2)) := by
  obtain ⟨hI, hO⟩ := traced_inv hk h
  have := hO.order i hi
  rw [(done_history hk hI hi hd).2.2] at this
  rw [this]
  simp [sentOn, hst]

/-- The condition of the theorems for benign schedules, in terms of the two numbers. -/
theorem benign_iff {k : Nat} {s : RingNet P} :
    Reachable true k s ↔ ∃ f, Traced k f s ∧ ∀ i < k, (f i).1 = 0 ∨ (f i).2 = 0 := by
  constructor
  · intro h
    induction h with
    | init pay => exact ⟨_, .init pay, fun _ _ => Or.inl rfl⟩
    | step _ hst ih =>
      obtain ⟨f, hf, hz⟩ := ih
      cases hst with
      | start i b hi hs hb =>
        refine ⟨_, .start hf i b hi hs, fun j hj => ?_⟩
        by_cases hji : j = i
        · subst hji
          rw [Function.update_self]
          rcases hb rfl with hb | hb <;> simp [hb]
        · rw [Function.update_of_ne hji]; exact hz j hj
      | arrive i m rest hi hn => exact ⟨_, .arrive hf i m rest hi hn, hz⟩
      | handle i m rest hi hm => exact ⟨_, .handle hf i m rest hi hm, hz⟩
  · rintro ⟨f, h, hz⟩
    have key : ∀ {f : Nat → Nat × Nat} {s : RingNet P}, Traced k f s → (∀ i < k, s.started i = true → (f i).1 = 0 ∨ (f i).2 = 0) →
        Reachable true k s := by
      intro f s h
      induction h with
      | init pay => intro _; exact .init pay
      | @start f s h i b hi hs ih =>
        intro hz
        refine .step (ih ?_) (.start _ i b hi hs (fun _ => ?_))
        · intro j hj hsj
          have hji : j ≠ i := by rintro rfl; rw [hs] at hsj; cases hsj
          have := hz j hj (by simpa [startStep, Function.update_of_ne hji] using hsj)
          rwa [Function.update_of_ne hji] at this
        · have := hz i hi (by simp [startStep])
          rw [Function.update_self] at this
          simpa [or_comm] using this
      | arrive h i m rest hi hn ih => intro hz; exact .step (ih hz) (.arrive _ i m rest hi hn)
      | @handle f s h i m rest hi hm ih =>
        intro hz
        refine .step (ih (fun j hj hsj => hz j hj ?_)) (.handle _ i m rest hi hm)
        rw [← hsj]
        simp only [handleStep]
        split
        · rfl
        · split <;> rfl
    exact key h (fun i hi _ => hz i hi)

/-- Every message on the way carries the contribution of its origin. -/
theorem body_pay {k : Nat} (hk : 2 ≤ k) {f : Nat → Nat × Nat} {s : RingNet P} (h : Traced k f s) :
    ∀ i < k, ∀ m ∈ history s i, m.origin < k ∧ s.started m.origin = true ∧ m.body = s.pay m.origin := by
  induction h with
  | init pay => intro i _ m hm; simp [init, history] at hm
  | @start f s h i b hi hs ih =>
    have keep : ∀ m : RMsg P, (m.origin < k ∧ s.started m.origin = true ∧ m.body = s.pay m.origin) →
        m.origin < k ∧ (startStep k s i b).started m.origin = true ∧ m.body = (startStep k s i b).pay m.origin := by
      rintro m ⟨h1, h2, h3⟩
      have hne : m.origin ≠ i := by rintro he; rw [he, hs] at h2; cases h2
      simp only [startStep, Function.update_of_ne hne]
      exact ⟨h1, h2, h3⟩
    have hown : (⟨i, b⟩ : RMsg P).origin < k ∧ (startStep k s i b).started i = true ∧ b = (startStep k s i b).pay i := by
      simp [startStep, hi]
    intro j hj m hm
    have hold := ih j hj m
    simp only [history, startStep, Proto.resolveBuffer, Proto.start, Proto.sent, List.mem_append] at hm hold
    by_cases hji : j = i
    · subst hji
      have hne := nxt_ne hk hj
      simp only [Function.update_self, Function.update_of_ne hne.symm, List.not_mem_nil, List.mem_append] at hm
      exact keep m (hold (by tauto))
    · by_cases hjn : j = nxt k i
      · subst hjn
        simp only [Function.update_self, Function.update_of_ne hji, List.mem_append, List.mem_singleton] at hm
        by_cases hmo : m = ⟨i, b⟩
        · subst hmo; exact hown
        · exact keep m (hold (by tauto))
      · simp only [Function.update_of_ne hji, Function.update_of_ne hjn] at hm
        exact keep m (hold (by tauto))
  | @arrive f s h i m rest hi hn ih =>
    intro j hj x hx
    refine ih j hj x ?_
    by_cases hji : j = i
    · subst hji
      simpa [history, arriveStep, hn] using hx
    · simpa [history, arriveStep, Function.update_of_ne hji] using hx
  | @handle f s h i m rest hi hm ih =>
    have hI := inv_reachable hk (traced_iff.1 ⟨_, h⟩)
    have hmi := ih i hi m (by simp [history, hm])
    have hst : (handleStep k s i m rest).started = s.started := by
      simp only [handleStep]
      split
      · rfl
      · split <;> rfl
    have hpay : (handleStep k s i m rest).pay = s.pay := by
      simp only [handleStep]
      split
      · rfl
      · split <;> rfl
    rw [hst, hpay]
    intro j hj x hx
    have hold := ih j hj x
    have hne := nxt_ne hk hi
    by_cases hxm : x = m
    · rw [hxm]; exact hmi
    refine hold ?_
    by_cases hs : s.started i = true
    · rw [handle_active hk hI hi hm hs] at hx
      by_cases hji : j = i
      · subst hji
        split at hx <;>
        · simp only [history, Proto.sent, Function.update_self, Function.update_of_ne hne.symm, List.mem_append,
            List.mem_singleton] at hx
          simp only [history, hm, List.mem_append, List.mem_cons]
          tauto
      · split at hx
        · by_cases hjn : j = nxt k i
          · subst hjn
            simp only [history, Function.update_self, Function.update_of_ne hji, List.mem_append,
              List.mem_singleton] at hx
            simp only [history, List.mem_append]
            tauto
          · simp only [history, Function.update_of_ne hji, Function.update_of_ne hjn, List.mem_append] at hx
            simp only [history, List.mem_append]
            tauto
        · simp only [history, Function.update_of_ne hji, List.mem_append] at hx
          simp only [history, List.mem_append]
          tauto
    · rw [handle_idle hI hi m rest (by simpa using hs)] at hx
      by_cases hji : j = i
      · subst hji
        simp only [history, Function.update_self, List.mem_append, List.mem_singleton] at hx
        simp only [history, hm, List.mem_append, List.mem_cons]
        tauto
      · simp only [history, Function.update_of_ne hji, List.mem_append] at hx
        simp only [history, List.mem_append]
        tauto

/-- Consequence of a start of node `j` with `w` waiting messages behind buffered ones: the contribution of its predecessor is
processed `w` positions too late from there on. -/
structure Late (k : Nat) (s : RingNet P) (j w : Nat) : Prop where
  node : j < k
  pos : 1 ≤ w
  bound : w + 1 ≤ k - 1
  here : w < (history s j).length
  at_pos : ∀ d, w + d < k - 1 → ∀ m, (history s ((j + d) % k))[w + d]? = some m → m.origin = prv k j

theorem history_start {k : Nat} (hk : 2 ≤ k) {s : RingNet P} (h : Inv k s) {i : Nat} (b : P) (hi : i < k)
    (hs : s.started i = false) (j : Nat) :
    history (startStep k s i b) j =
      if j = i then s.mailbox i ++ ((s.proto i).buffer ++ s.net i)
      else if j = nxt k i then history s j ++ [⟨i, b⟩] else history s j := by
  obtain ⟨h1, h2, h3, h4, h5⟩ := h.idle i hi hs
  have hne := nxt_ne hk hi
  by_cases hji : j = i
  · subst hji
    simp [history, startStep, Proto.resolveBuffer, Proto.start, Proto.sent, Function.update_of_ne hne.symm, h4]
  · rw [if_neg hji]
    by_cases hjn : j = nxt k i
    · subst hjn
      simp [history, startStep, Function.update_of_ne hji]
    · rw [if_neg hjn]
      simp [history, startStep, Function.update_of_ne hji, Function.update_of_ne hjn]

theorem history_arrive {s : RingNet P} {i : Nat} {m : RMsg P} {rest : List (RMsg P)} (hn : s.net i = m :: rest) (j : Nat) :
    history (arriveStep s i m rest) j = history s j := by
  by_cases hji : j = i
  · subst hji
    simp [history, arriveStep, Function.update_self, hn]
  · simp [history, arriveStep, Function.update_of_ne hji]

theorem history_handle {k : Nat} (hk : 2 ≤ k) {s : RingNet P} (h : Inv k s) {i : Nat} {m : RMsg P}
    {rest : List (RMsg P)} (hi : i < k) (hm : s.mailbox i = m :: rest) (j : Nat) :
    history (handleStep k s i m rest) j =
      if j = nxt k i ∧ s.started i = true ∧ (s.processed i).length + 1 < k - 1 then history s j ++ [m] else history s j := by
  have hne := nxt_ne hk hi
  by_cases hs : s.started i = true
  · obtain ⟨a, b, c, d, e⟩ := h.active i hi hs
    rw [handle_active hk h hi hm hs]
    by_cases hrun : (s.processed i).length + 1 < k - 1
    · rw [if_pos hrun]
      by_cases hji : j = i
      · subst hji
        rw [if_neg (by rintro ⟨h1, _⟩; exact hne h1.symm)]
        simp [history, Proto.sent, Function.update_self, Function.update_of_ne hne.symm, hm, d]
      · by_cases hjn : j = nxt k i
        · subst hjn
          rw [if_pos ⟨rfl, hs, hrun⟩]
          simp [history, Function.update_of_ne hne]
        · rw [if_neg (fun h => hjn h.1)]
          simp [history, Function.update_of_ne hji, Function.update_of_ne hjn]
    · rw [if_neg hrun, if_neg (fun h => hrun h.2.2)]
      by_cases hji : j = i
      · subst hji
        simp [history, Function.update_self, hm, d]
      · simp [history, Function.update_of_ne hji]
  · rw [handle_idle h hi m rest (by simpa using hs), if_neg (fun h => hs h.2.1)]
    by_cases hji : j = i
    · subst hji
      simp [history, Function.update_self, hm]
    · simp [history, Function.update_of_ne hji]

/-- Node `j + d` cannot have got more than `d` messages before node `j` has started. -/
theorem reach_length {k : Nat} (hk : 2 ≤ k) {s : RingNet P} (h : Inv k s) {j : Nat} (hj : j < k) (hs : s.started j = false) :
    ∀ d, d + 1 < k → (history s ((j + (d + 1)) % k)).length ≤ d := by
  have hprv : ∀ d, d + 1 < k → prv k ((j + (d + 1)) % k) = (j + d) % k := by
    intro d hd
    rw [prv_eq (Nat.mod_lt _ (by omega))]
    by_cases h1 : j + (d + 1) < k
    · rw [Nat.mod_eq_of_lt h1, Nat.mod_eq_of_lt (by omega)]; split <;> omega
    · have e1 : (j + (d + 1)) % k = j + (d + 1) - k := by
        rw [Nat.mod_eq_sub_mod (by omega), Nat.mod_eq_of_lt (by omega)]
      rw [e1]
      by_cases h2 : j + d < k
      · rw [Nat.mod_eq_of_lt h2]; split <;> omega
      · rw [Nat.mod_eq_sub_mod (by omega), Nat.mod_eq_of_lt (show j + d - k < k by omega)]
        split <;> omega
  intro d
  induction d with
  | zero =>
    intro hd
    rw [h.count _ (Nat.mod_lt _ (by omega)), hprv 0 hd, Nat.add_zero, Nat.mod_eq_of_lt hj]
    simp [sentOn, hs]
  | succ d ih =>
    intro hd
    rw [h.count _ (Nat.mod_lt _ (by omega)), hprv (d + 1) hd]
    have := ih (by omega)
    have h1 : (s.processed ((j + (d + 1)) % k)).length ≤ d := by
      simp only [history, List.length_append] at this; omega
    unfold sentOn
    split
    · simp only [List.length_cons, List.length_take]; omega
    · simp

/-- Either all starts were harmless, or some contribution is late. -/
theorem late_of_traced {k : Nat} (hk : 2 ≤ k) {f : Nat → Nat × Nat} {s : RingNet P} (h : Traced k f s) :
    (∀ i < k, (f i).1 = 0 ∨ (f i).2 = 0) ∨ ∃ j w, Late k s j w := by
  have hmod : ∀ x, x % k < k := fun x => Nat.mod_lt _ (by omega)
  induction h with
  | init pay => exact Or.inl (fun _ _ => Or.inl rfl)
  | @start f s h i b hi hs ih =>
    obtain ⟨hI, hO⟩ := traced_inv hk h
    obtain ⟨h1, h2, h3, h4, h5⟩ := hI.idle i hi hs
    by_cases hz : (s.proto i).buffer = [] ∨ s.mailbox i = []
    · -- nothing is reordered
      have hsame : s.mailbox i ++ ((s.proto i).buffer ++ s.net i) = history s i := by
        rcases hz with hz | hz <;> simp [history, h4, hz]
      rcases ih with ih | ⟨j, w, hL⟩
      · left
        intro n hn
        by_cases hni : n = i
        · subst hni
          rw [Function.update_self]
          rcases hz with hz | hz <;> simp [hz]
        · rw [Function.update_of_ne hni]; exact ih n hn
      · right
        have hist : ∀ n, history (startStep k s i b) n = history s n ++ if n = nxt k i then [⟨i, b⟩] else [] := by
          intro n
          rw [history_start hk hI b hi hs]
          by_cases hni : n = i
          · subst hni
            rw [if_pos rfl, if_neg (nxt_ne hk hi).symm, hsame, List.append_nil]
          · rw [if_neg hni]; split <;> simp
        have hz0 : (history s (nxt k i)).length = 0 := by
          rw [hI.count _ (nxt_lt hk), prv_nxt hk hi]; simp [sentOn, hs]
        refine ⟨j, w, hL.node, hL.pos, hL.bound, by rw [hist, List.length_append]; have := hL.here; omega, ?_⟩
        intro d hd m hm
        rw [hist] at hm
        by_cases hn : (j + d) % k = nxt k i
        · rw [if_pos hn, hn, List.length_eq_zero_iff.1 hz0, List.nil_append,
            List.getElem?_eq_none (by have := hL.pos; simp; omega)] at hm
          cases hm
        · rw [if_neg hn, List.append_nil] at hm
          exact hL.at_pos d hd m hm
    · -- node i has buffered and waiting messages
      right
      push Not at hz
      have hb1 := List.length_pos_iff.2 hz.1
      have hw1 := List.length_pos_iff.2 hz.2
      have hhist : history s i = (s.proto i).buffer ++ (s.mailbox i ++ s.net i) := by simp [history, h4]
      have hlen := history_length hk hI hi
      rw [hhist] at hlen
      simp only [List.length_append] at hlen
      have hq := hO.order i hi
      rw [hO.idle i hi hs, reorder_trivial (by simp), hhist] at hq
      have hps : s.started (prv k i) = true := by
        by_contra hcon
        simp only [sentOn, hcon, if_false] at hq
        simp [hz.1] at hq
      obtain ⟨a, rest, hbuf⟩ := List.exists_cons_of_ne_nil hz.1
      have ha : a.origin = prv k i := by
        rw [hbuf, sentOn, if_pos hps] at hq
        simp only [List.cons_append, List.cons.injEq] at hq
        rw [hq.1]
      refine ⟨i, (s.mailbox i).length, hi, hw1, by omega, ?_, ?_⟩
      · rw [history_start hk hI b hi hs, if_pos rfl]
        simp only [List.length_append]; omega
      · intro d hd m hm
        rw [history_start hk hI b hi hs] at hm
        cases d with
        | zero =>
          rw [Nat.add_zero, Nat.mod_eq_of_lt hi, if_pos rfl, Nat.add_zero, List.getElem?_append_right le_rfl, Nat.sub_self,
            hbuf] at hm
          simp at hm
          rw [← hm]; exact ha
        | succ d =>
          have hne : (i + (d + 1)) % k ≠ i := by
            by_cases hlt : i + (d + 1) < k
            · rw [Nat.mod_eq_of_lt hlt]; omega
            · rw [Nat.mod_eq_sub_mod (by omega), Nat.mod_eq_of_lt (by omega)]; omega
          rw [if_neg hne] at hm
          have hl := reach_length hk hI hi hs d (by omega)
          rw [List.getElem?_eq_none] at hm
          · cases hm
          · split
            · rw [List.length_append, List.length_singleton]; omega
            · omega
  | @arrive f s h i m rest hi hn ih =>
    rcases ih with ih | ⟨j, w, hL⟩
    · exact Or.inl ih
    · exact Or.inr ⟨j, w, hL.node, hL.pos, hL.bound, by rw [history_arrive hn]; exact hL.here,
        fun d hd x hx => hL.at_pos d hd x (by rwa [history_arrive hn] at hx)⟩
  | @handle f s h i m rest hi hm ih =>
    obtain ⟨hI, hO⟩ := traced_inv hk h
    rcases ih with ih | ⟨j, w, hL⟩
    · exact Or.inl ih
    · right
      refine ⟨j, w, hL.node, hL.pos, hL.bound, ?_, ?_⟩
      · rw [history_handle hk hI hi hm]
        have := hL.here
        split
        · rw [List.length_append]; omega
        · exact this
      · intro d hd x hx
        rw [history_handle hk hI hi hm] at hx
        split at hx
        · next hc =>
          obtain ⟨hn, hs, hrun⟩ := hc
          by_cases hlt : w + d < (history s ((j + d) % k)).length
          · rw [List.getElem?_append_left hlt] at hx
            exact hL.at_pos d hd x hx
          · have hlen : (history s ((j + d) % k)).length = 1 + (s.processed i).length := by
              rw [hI.count _ (hmod _), hn, prv_nxt hk hi, sentOn, if_pos hs, List.take_of_length_le (by omega)]
              simp; omega
            have hwd : w + d = 1 + (s.processed i).length := by
              have := (List.getElem?_eq_some_iff.1 hx).1
              rw [List.length_append, List.length_singleton] at this
              omega
            rw [List.getElem?_append_right (by omega), show w + d - (history s ((j + d) % k)).length = 0 by omega] at hx
            simp at hx
            subst hx
            cases d with
            | zero =>
              have := hL.here
              rw [Nat.add_zero, Nat.add_zero, Nat.mod_eq_of_lt hL.node] at hlt
              omega
            | succ d =>
              have hnode : (j + d) % k = i := by
                have e : prv k ((j + (d + 1)) % k) = i := by rw [hn, prv_nxt hk hi]
                rw [← e, prv_eq (hmod _)]
                have hj := hL.node
                by_cases h1 : j + (d + 1) < k
                · rw [Nat.mod_eq_of_lt h1, Nat.mod_eq_of_lt (by omega)]; split <;> omega
                · have e1 : (j + (d + 1)) % k = j + (d + 1) - k := by
                    rw [Nat.mod_eq_sub_mod (by omega), Nat.mod_eq_of_lt (by omega)]
                  rw [e1]
                  by_cases h2 : j + d < k
                  · rw [Nat.mod_eq_of_lt h2]; split <;> omega
                  · rw [Nat.mod_eq_sub_mod (by omega), Nat.mod_eq_of_lt (show j + d - k < k by omega)]
                    split <;> omega
              refine hL.at_pos d (by omega) m ?_
              rw [hnode]
              have hbuf := (hI.active i hi hs).2.2.2.1
              simp only [history, hbuf, hm, List.nil_append, List.cons_append]
              rw [List.getElem?_append_right (by omega), show w + d - (s.processed i).length = 0 by omega]
              rfl
        · exact hL.at_pos d hd x hx

/-- C18 (what goes wrong): if a node had both buffered and waiting messages when it entered the stage, then some node never
processes the contribution of some other node. -/
theorem C18_race_misses {k : Nat} (hk : 2 ≤ k) {f : Nat → Nat × Nat} {s : RingNet P} (h : Traced k f s)
    (hd : ∀ i < k, s.done i = 1) (hrace : ∃ i < k, (f i).1 ≠ 0 ∧ (f i).2 ≠ 0) :
    ∃ i < k, ∃ j < k, j ≠ i ∧ j ∉ (s.processed i).map RMsg.origin := by
  by_contra hcon
  push Not at hcon
  rcases late_of_traced hk h with hz | ⟨j, w, hL⟩
  · obtain ⟨i, hi, h1, h2⟩ := hrace
    rcases hz i hi with h | h
    · exact h1 h
    · exact h2 h
  obtain ⟨hI, hO⟩ := traced_inv hk h
  have hj := hL.node
  have hw := hL.pos
  have hb := hL.bound
  have hdone := fun i (hi : i < k) => done_history hk hI hi (hd i hi)
  have hall : ∀ i < k, ((s.processed i).map RMsg.origin).Perm (DirectNet.peers false k i) := by
    intro i hi
    have hsub : (DirectNet.peers false k i).Subperm ((s.processed i).map RMsg.origin) := by
      refine List.subperm_of_subset DirectNet.nodup_peers (fun x hx => ?_)
      rw [DirectNet.mem_peers] at hx
      exact hcon i hi x hx.1 (by simpa using hx.2)
    refine (hsub.perm_of_length_le ?_).symm
    rw [List.length_map, (hdone i hi).2.1, DirectNet.length_peers hi]
    simp [DirectNet.total]
  -- the node that drops the contribution, and the one after it
  set n := (j + (k - 2 - w)) % k with hn
  have hnk : n < k := Nat.mod_lt _ (by omega)
  have hlast : ∀ m, (s.processed n)[k - 2]? = some m → m.origin = prv k j := by
    intro m hm
    refine hL.at_pos (k - 2 - w) (by omega) m ?_
    rw [← hn, (hdone n hnk).2.2, show w + (k - 2 - w) = k - 2 by omega]
    exact hm
  have hlen := (hdone n hnk).2.1
  have hvn : n = if j + (k - 2 - w) < k then j + (k - 2 - w) else j + (k - 2 - w) - k := by
    rw [hn]
    split
    · next h1 => exact Nat.mod_eq_of_lt h1
    · rw [Nat.mod_eq_sub_mod (by omega), Nat.mod_eq_of_lt (by omega)]
  have hpj : prv k j = if j = 0 then k - 1 else j - 1 := prv_eq hj
  have hne1 : prv k j ≠ n := by rw [hvn, hpj]; split <;> split <;> omega
  have hnn : nxt k n = if n + 1 = k then 0 else n + 1 := nxt_eq hnk
  have hne2 : prv k j ≠ nxt k n := by
    rw [hnn, hpj]
    split at hvn <;> split <;> split <;> omega
  -- the messages of the node after it
  have hord := hO.order (nxt k n) (nxt_lt hk)
  rw [(hdone _ (nxt_lt hk)).2.2, prv_nxt hk hnk, sentOn, if_pos (hdone n hnk).1] at hord
  obtain ⟨m, hmem, hmo⟩ := List.mem_map.1 (hcon (nxt k n) (nxt_lt hk) (prv k j) (prv_lt hk) hne2)
  rw [hord, (reorder_perm _ _ _).mem_iff] at hmem
  rcases List.mem_cons.1 hmem with he | hmem
  · rw [he] at hmo
    exact hne1 hmo.symm
  · -- it would be twice in the list of node n
    have hnodup : ((s.processed n).map RMsg.origin).Nodup := (hall n hnk).nodup_iff.2 DirectNet.nodup_peers
    obtain ⟨x, hx, hxe⟩ := List.mem_iff_getElem.1 hmem
    rw [List.length_take] at hx
    rw [List.getElem_take] at hxe
    have h2 := hlast _ (List.getElem?_eq_getElem (show k - 2 < (s.processed n).length by omega))
    have := (List.nodup_iff_injective_getElem.1 hnodup) (a₁ := ⟨x, by simp; omega⟩) (a₂ := ⟨k - 2, by simp; omega⟩)
      (by simp [hxe, h2, hmo])
    simp at this
    omega

/-- C18 (exact, every cluster size, every schedule): when all nodes have announced completion, every node has processed the
contribution of every other node exactly once **if and only if** no node had both buffered and waiting messages when it entered
the stage. -/
theorem C18_correct_iff {k : Nat} (hk : 2 ≤ k) {f : Nat → Nat × Nat} {s : RingNet P} (h : Traced k f s)
    (hd : ∀ i < k, s.done i = 1) :
    (∀ i < k, (s.processed i).Perm ((DirectNet.peers false k i).map (fun j => RMsg.mk j (s.pay j)))) ↔
      ∀ i < k, (f i).1 = 0 ∨ (f i).2 = 0 := by
  constructor
  · intro hall
    by_contra hcon
    push Not at hcon
    obtain ⟨i, hi, j, hj, hji, hne⟩ := C18_race_misses hk h hd hcon
    apply hne
    rw [((hall i hi).map RMsg.origin).mem_iff, List.map_map]
    exact List.mem_map.2 ⟨j, DirectNet.mem_peers.2 ⟨hj, Or.inr hji⟩, rfl⟩
  · intro hz i hi
    exact (C18_rotation_complete hk (benign_iff.2 ⟨f, h, hz⟩) hi).2 (hd i hi)

theorem handle_started {k : Nat} {s : RingNet P} {i : Nat} {m : RMsg P} {rest : List (RMsg P)} :
    (handleStep k s i m rest).started = s.started := by
  simp only [handleStep]
  split
  · rfl
  · split <;> rfl

theorem handle_pay {k : Nat} {s : RingNet P} {i : Nat} {m : RMsg P} {rest : List (RMsg P)} :
    (handleStep k s i m rest).pay = s.pay := by
  simp only [handleStep]
  split
  · rfl
  · split <;> rfl

/-- Every execution can be continued until all nodes have announced completion; what happened at the start of the nodes which
have already started does not change. -/
theorem traced_complete {k : Nat} (hk : 2 ≤ k) : ∀ (n : Nat) {f : Nat → Nat × Nat} {s : RingNet P}, remaining k s ≤ n →
    Traced k f s → ∃ (f' : Nat → Nat × Nat) (s' : RingNet P), Traced k f' s' ∧ (∀ i < k, s'.done i = 1) ∧
      (∀ i, s.started i = true → f' i = f i) ∧ s'.pay = s.pay := by
  intro n
  induction n using Nat.strong_induction_on with
  | _ n ih =>
    intro f s hn h
    have hr := traced_iff.1 ⟨f, h⟩
    by_cases h1 : ∃ i < k, s.started i = false
    · obtain ⟨i, hi, hs⟩ := h1
      have hlt := C18_terminates hk hr (.start s i (s.pay i) hi hs (by simp))
      obtain ⟨f', s', h', hd, hf, hp⟩ := ih (remaining k (startStep k s i (s.pay i))) (by omega) le_rfl
        (.start h i (s.pay i) hi hs)
      refine ⟨f', s', h', hd, fun j hj => ?_, by rw [hp]; simp [startStep]⟩
      have hji : j ≠ i := by rintro rfl; rw [hs] at hj; cases hj
      rw [hf j (by simpa [startStep, Function.update_of_ne hji] using hj), Function.update_of_ne hji]
    · by_cases h2 : ∃ i < k, s.mailbox i ≠ []
      · obtain ⟨i, hi, hne⟩ := h2
        obtain ⟨m, rest, hm⟩ := List.exists_cons_of_ne_nil hne
        have hlt := C18_terminates hk hr (.handle s i m rest hi hm)
        obtain ⟨f', s', h', hd, hf, hp⟩ := ih (remaining k (handleStep k s i m rest)) (by omega) le_rfl (.handle h i m rest hi hm)
        exact ⟨f', s', h', hd, fun j hj => hf j (by rwa [handle_started]), by rw [hp, handle_pay]⟩
      · by_cases h3 : ∃ i < k, s.net i ≠ []
        · obtain ⟨i, hi, hne⟩ := h3
          obtain ⟨m, rest, hm⟩ := List.exists_cons_of_ne_nil hne
          have hlt := C18_terminates hk hr (.arrive s i m rest hi hm)
          obtain ⟨f', s', h', hd, hf, hp⟩ := ih (remaining k (arriveStep s i m rest)) (by omega) le_rfl (.arrive h i m rest hi hm)
          exact ⟨f', s', h', hd, fun j hj => hf j hj, by rw [hp]; rfl⟩
        · push Not at h1 h2 h3
          exact ⟨f, s, h, fun i hi => C18_quiescent_done hk hr (fun j hj => by simpa using h1 j hj)
            (fun j hj => ⟨h2 j hj, h3 j hj⟩) hi, fun _ _ => rfl, rfl⟩

/-- C18 (wrong for every larger cluster): for every cluster of at least three nodes, whatever the contributions, there is a schedule
in which all nodes announce completion, but not all of them have processed the contributions of all others. -/
theorem C18_wrong_everywhere {k : Nat} (hk : 3 ≤ k) (pay : Nat → P) : ∃ (f : Nat → Nat × Nat) (s : RingNet P), Traced k f s ∧
    s.pay = pay ∧ (∀ i < k, s.done i = 1) ∧
    ¬ ∀ i < k, (s.processed i).Perm ((DirectNet.peers false k i).map (fun j => RMsg.mk j (pay j))) := by
  have hk2 : 2 ≤ k := by omega
  have n0 : nxt k 0 = 1 := by rw [nxt_eq (by omega)]; split <;> omega
  have nl : nxt k (k - 1) = 0 := by rw [nxt_eq (by omega)]; split <;> omega
  have hl0 : k - 1 ≠ 0 := by omega
  have hl1 : k - 1 ≠ 1 := by omega
  -- node 0 starts, its message is buffered at node 1
  have t1 : Traced k _ (startStep k (init pay) 0 (pay 0)) := .start (.init pay) 0 (pay 0) (by omega) rfl
  set s1 := startStep k (init pay) 0 (pay 0) with hs1
  have t2 := Traced.arrive t1 1 ⟨0, pay 0⟩ [] (by omega) (by simp [hs1, startStep, n0, init])
  set s2 := arriveStep s1 1 ⟨0, pay 0⟩ [] with hs2
  have t3 := Traced.handle t2 1 ⟨0, pay 0⟩ [] (by omega) (by simp [hs2, hs1, arriveStep, startStep, init])
  set s3 := handleStep k s2 1 ⟨0, pay 0⟩ [] with hs3
  have e3 : s3 = { s2 with proto := Function.update s2.proto 1 { s2.proto 1 with buffer := (s2.proto 1).buffer ++ [⟨0, pay 0⟩] }
                           mailbox := Function.update s2.mailbox 1 [] } :=
    handle_idle (inv_reachable hk2 (traced_iff.1 ⟨_, t2⟩)) (by omega) _ _
      (by simp [hs2, hs1, arriveStep, startStep, init])
  -- the last node starts, node 0 forwards its message, which waits at node 1
  have t4 := Traced.start t3 (k - 1) (pay (k - 1)) (by omega)
    (by rw [e3]; simp [hs2, hs1, arriveStep, startStep, init, Function.update_of_ne hl0])
  set s4 := startStep k s3 (k - 1) (pay (k - 1)) with hs4
  have t5 := Traced.arrive t4 0 ⟨k - 1, pay (k - 1)⟩ [] (by omega)
    (by rw [hs4, e3]; simp [hs2, hs1, arriveStep, startStep, init, nl, n0])
  set s5 := arriveStep s4 0 ⟨k - 1, pay (k - 1)⟩ [] with hs5
  have t6 := Traced.handle t5 0 ⟨k - 1, pay (k - 1)⟩ [] (by omega)
    (by rw [hs5, hs4, e3]; simp [hs2, hs1, arriveStep, startStep, init, Function.update_of_ne hl0.symm, Proto.start,
          Proto.resolveBuffer])
  set s6 := handleStep k s5 0 ⟨k - 1, pay (k - 1)⟩ [] with hs6
  have hst5 : s5.started 0 = true := by
    rw [hs5, hs4, e3]; simp [hs2, hs1, arriveStep, startStep, init, Function.update_of_ne hl0.symm]
  have e6 := handle_active hk2 (inv_reachable hk2 (traced_iff.1 ⟨_, t5⟩)) (by omega)
    (show s5.mailbox 0 = ⟨k - 1, pay (k - 1)⟩ :: [] by
      rw [hs5, hs4, e3]; simp [hs2, hs1, arriveStep, startStep, init, Function.update_of_ne hl0.symm, Proto.start,
          Proto.resolveBuffer]) hst5
  rw [if_pos (by
    rw [hs5, hs4, e3]; simp [hs2, hs1, arriveStep, startStep, init]; omega), ← hs6, n0] at e6
  have t7 := Traced.arrive t6 1 ⟨k - 1, pay (k - 1)⟩ [] (by omega)
    (by rw [e6, hs5, hs4, e3]; simp [hs2, hs1, arriveStep, startStep, init, nl, n0])
  set s7 := arriveStep s6 1 ⟨k - 1, pay (k - 1)⟩ [] with hs7
  have hst7 : s7.started 1 = false := by
    rw [hs7, e6, hs5, hs4, e3]
    simp [hs2, hs1, arriveStep, startStep, init, Function.update_of_ne hl1.symm]
  have hb7 : (s7.proto 1).buffer = [⟨0, pay 0⟩] := by
    rw [hs7, e6, hs5, hs4, e3]
    simp [hs2, hs1, arriveStep, startStep, init, Function.update_of_ne hl1.symm]
  have hm7 : s7.mailbox 1 = [⟨k - 1, pay (k - 1)⟩] := by
    rw [hs7, e6, hs5, hs4, e3]
    simp [hs2, hs1, arriveStep, startStep, init, Function.update_of_ne hl1.symm, Proto.start, Proto.resolveBuffer]
  have t8 := Traced.start t7 1 (pay 1) (by omega) hst7
  obtain ⟨f', s', h', hd, hf, hp⟩ := traced_complete hk2 _ le_rfl t8
  have hp7 : s'.pay = pay := by
    rw [hp, hs7, e6, hs5, hs4, e3]
    simp only [hs2, hs1, arriveStep, startStep, init]
    simp
  refine ⟨f', s', h', hp7, hd, fun hall => ?_⟩
  rw [← hp7] at hall
  have := (C18_correct_iff hk2 h' hd).1 hall 1 (by omega)
  rw [hf 1 (by simp [startStep]), Function.update_self, hb7, hm7] at this
  simp at this

/-- The condition of `C18_correct_iff` is met, for every cluster size, e.g. by starting all nodes before delivering anything. -/
theorem C18_right_possible {k : Nat} (hk : 2 ≤ k) (pay : Nat → P) : ∃ (f : Nat → Nat × Nat) (s : RingNet P), Traced k f s ∧
    s.pay = pay ∧ (∀ i < k, s.done i = 1) ∧ ∀ i < k, (f i).1 = 0 ∨ (f i).2 = 0 := by
  have key : ∀ n ≤ k, ∃ (f : Nat → Nat × Nat) (s : RingNet P), Traced k f s ∧ (∀ i, s.started i = decide (i < n)) ∧
      (∀ i, (s.proto i).buffer = []) ∧ s.pay = pay ∧ ∀ i, (f i).1 = 0 ∨ (f i).2 = 0 := by
    intro n
    induction n with
    | zero =>
      intro _
      exact ⟨_, _, .init pay, fun i => by simp [init], fun i => by simp [init], rfl, fun i => Or.inl rfl⟩
    | succ n ih =>
      intro hn
      obtain ⟨f, s, h, hst, hb, hpay, hf⟩ := ih (by omega)
      refine ⟨_, _, .start h n (pay n) (by omega) (by rw [hst]; simp), ?_, ?_, by simp [startStep, hpay], ?_⟩
      · intro i
        by_cases hi : i = n
        · subst hi; simp [startStep]
        · simp only [startStep, Function.update_of_ne hi, hst]
          congr 1; rw [eq_iff_iff]; omega
      · intro i
        by_cases hi : i = n
        · subst hi; simp [startStep, Proto.resolveBuffer, Proto.sent, Proto.start]
        · simp only [startStep, Function.update_of_ne hi, hb]
      · intro i
        by_cases hi : i = n
        · subst hi; simp [hb]
        · rw [Function.update_of_ne hi]; exact hf i
  obtain ⟨f, s, h, hst, _, hpay, hf⟩ := key k le_rfl
  obtain ⟨f', s', h', hd, hf', hp'⟩ := traced_complete hk _ le_rfl h
  refine ⟨f', s', h', hp'.trans hpay, hd, fun i hi => ?_⟩
  rw [hf' i (by rw [hst]; simpa using hi)]
  exact hf i

end RingNet
end S2G
