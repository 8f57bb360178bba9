import Verif.Model.EndNet
import Verif.Props.Ring
import Verif.Props.SubScores

/-!
# C88: who delivers when nodes stop
-/

namespace S2G
namespace EndNet
open RingNet

variable {P : Type} {benign lossy : Bool} {k : Nat}

theorem nxt_inj (hk : 2 ≤ k) {i j : Nat} (hi : i < k) (hj : j < k) (h : nxt k i = nxt k j) : i = j := by
  rw [← prv_nxt hk hi, ← prv_nxt hk hj, h]

theorem start_net (r : RingNet P) (ν : Nat → List (RMsg P)) (i : Nat) (b : P) : startStep k { r with net := ν } i b =
    { startStep k r i b with net := Function.update ν (nxt k i) (ν (nxt k i) ++ [⟨i, b⟩]) } := rfl

theorem handle_net (r : RingNet P) (i : Nat) (m : RMsg P) (rest : List (RMsg P)) : ∃ x : List (RMsg P), x.length ≤ 1 ∧ ∀ ν,
    handleStep k { r with net := ν } i m rest =
      { handleStep k r i m rest with net := Function.update ν (nxt k i) (ν (nxt k i) ++ x) } := by
  rcases hx : (r.proto i).received m with ⟨b, q⟩
  cases b
  · refine ⟨[], by simp, fun ν => ?_⟩
    simp [handleStep, hx]
  · by_cases hr : q.isRunning
    · refine ⟨[m], by simp, fun ν => ?_⟩
      simp [handleStep, hx, hr]
    · refine ⟨[], by simp, fun ν => ?_⟩
      simp [handleStep, hx, hr]

/-- `r` is a state of the ring without stops which differs from that of `s` by lost messages only. -/
structure Sim (k : Nat) (r : RingNet P) (s : EndNet P) : Prop where
  ring : s.ring = { r with net := s.ring.net }
  kept : ∀ i < k, s.stopped i = false → s.ring.net (nxt k i) = r.net (nxt k i)
  lost : ∀ i < k, s.ring.net (nxt k i) <+: r.net (nxt k i)

theorem sim_of (ν : Nat → List (RMsg P)) (r : RingNet P) (st : Nat → Bool) (h1 : ∀ i < k, st i = false → ν (nxt k i) = r.net (nxt k i))
    (h2 : ∀ i < k, ν (nxt k i) <+: r.net (nxt k i)) : Sim k r ⟨{ r with net := ν }, st⟩ := ⟨rfl, h1, h2⟩

/-- Messages on the way, for the measure. -/
def flying (k : Nat) (ν : Nat → List (RMsg P)) : Nat := ∑ i ∈ Finset.range k, (ν i).length

theorem flying_update (ν : Nat → List (RMsg P)) {j : Nat} (hj : j < k) (l : List (RMsg P)) :
    flying k (Function.update ν j l) + (ν j).length = flying k ν + l.length := by
  unfold flying
  have h := Finset.sum_update_of_mem (Finset.mem_range.2 hj) (fun i => (ν i).length) l.length
  have e : ∀ i, (Function.update ν j l i).length = Function.update (fun i => (ν i).length) j l.length i := by
    intro i
    by_cases hi : i = j
    · subst hi; simp
    · simp [Function.update_of_ne hi]
  simp only [e]
  rw [h]
  have h2 := Finset.sum_sdiff (f := fun i => (ν i).length) (Finset.singleton_subset_iff.2 (Finset.mem_range.2 hj))
  simp only [Finset.sum_singleton] at h2
  omega

/-- Processes which run. -/
def running (k : Nat) (st : Nat → Bool) : Nat := ∑ i ∈ Finset.range k, if st i then 0 else 1

theorem running_stop (st : Nat → Bool) {j : Nat} (hj : j < k) (h : st j = false) : running k (Function.update st j true) < running k st := by
  unfold running
  refine Finset.sum_lt_sum (fun i _ => ?_) ⟨j, Finset.mem_range.2 hj, by simp [h]⟩
  by_cases hi : i = j
  · subst hi; simp
  · simp [Function.update_of_ne hi]

/-- Every step is a step of the ring without stops, or the ring is left as it is; and something decreases. -/
theorem sim_step (hk : 2 ≤ k) {r : RingNet P} {s t : EndNet P} (hr : RingNet.Reachable benign k r) (h : Sim k r s) (hst : Step benign lossy k s t) :
    ∃ r', RingNet.Reachable benign k r' ∧ Sim k r' t ∧ (r' = r ∨ RingNet.Step benign k r r') ∧
      2 * remaining k r' + flying k t.ring.net + running k t.stopped < 2 * remaining k r + flying k s.ring.net + running k s.stopped := by
  obtain ⟨ring, st⟩ := s
  obtain ⟨h1, h2, h3⟩ := h
  generalize hν : ring.net = ν at *
  simp only at h1 h2 h3
  cases hst with
  | start i b hi hs hn hb =>
    simp only [hν] at *
    subst h1
    simp only at hn hb
    have hs' : RingNet.Step benign k r (startStep k r i b) := .start r i b hi hn hb
    refine ⟨_, .step hr hs', ?_, .inr hs', ?_⟩
    · rw [start_net]
      refine sim_of _ _ _ (fun j hj hjs => ?_) fun j hj => ?_
      · by_cases e : j = i
        · subst e; simp [h2 j hj hs]
        · have := fun h => e (nxt_inj hk hj hi h)
          simp [Function.update_of_ne this, h2 j hj hjs]
      · by_cases e : j = i
        · subst e; simp [h2 j hj hs]
        · have := fun h => e (nxt_inj hk hj hi h)
          simpa [startStep, Function.update_of_ne this] using h3 j hj
    · have a := C18_terminates hk hr hs'
      have b := flying_update (k := k) ν (nxt_lt hk (i := i)) (ν (nxt k i) ++ [⟨i, b⟩])
      simp only [start_net, List.length_append, List.length_singleton] at b ⊢
      omega
  | arrive i m rest hi hs hn =>
    simp only [hν] at *
    subst h1
    have hp := h3 (prv k i) (prv_lt hk)
    rw [nxt_prv hk hi, hn] at hp
    obtain ⟨u, hu⟩ := hp
    have hs' : RingNet.Step benign k r (arriveStep r i m (rest ++ u)) := .arrive r i m _ hi hu.symm
    refine ⟨_, .step hr hs', ?_, .inr hs', ?_⟩
    · refine ⟨rfl, fun j hj hjs => ?_, fun j hj => ?_⟩
      · by_cases e : nxt k j = i
        · have := h2 j hj hjs
          rw [e, hn, ← hu] at this
          simp only [List.cons_append, List.cons.injEq, true_and] at this
          simp [arriveStep, e, ← this]
        · simpa [arriveStep, Function.update_of_ne e] using h2 j hj hjs
      · by_cases e : nxt k j = i
        · simp [arriveStep, e]
        · simpa [arriveStep, Function.update_of_ne e] using h3 j hj
    · have a := C18_terminates hk hr hs'
      have b := flying_update (k := k) ν hi rest
      rw [hn] at b
      simp only [arriveStep, List.length_cons] at a b ⊢
      omega
  | handle i m rest hi hs hn =>
    simp only [hν] at *
    subst h1
    simp only at hn
    have hs' : RingNet.Step benign k r (handleStep k r i m rest) := .handle r i m rest hi hn
    obtain ⟨x, hx1, hx⟩ := handle_net (k := k) r i m rest
    have hxr : (handleStep k r i m rest).net = Function.update r.net (nxt k i) (r.net (nxt k i) ++ x) := congrArg RingNet.net (hx r.net)
    refine ⟨_, .step hr hs', ?_, .inr hs', ?_⟩
    · rw [hx ν]
      refine sim_of _ _ _ (fun j hj hjs => ?_) fun j hj => ?_
      · rw [hxr]
        by_cases e : j = i
        · subst e; simp [h2 j hj hs]
        · have := fun h => e (nxt_inj hk hj hi h)
          simp [Function.update_of_ne this, h2 j hj hjs]
      · rw [hxr]
        by_cases e : j = i
        · subst e; simp [h2 j hj hs]
        · have := fun h => e (nxt_inj hk hj hi h)
          simpa [Function.update_of_ne this] using h3 j hj
    · have a := C18_terminates hk hr hs'
      have b := flying_update (k := k) ν (nxt_lt hk (i := i)) (ν (nxt k i) ++ x)
      rw [hx ν]
      simp only [List.length_append] at b ⊢
      omega
  | finish i hi hs hn =>
    refine ⟨r, hr, ⟨by simpa [stop, hν] using h1, fun j hj hjs => ?_, fun j hj => by simpa [stop, hν] using h3 j hj⟩, .inl rfl, ?_⟩
    · have : st j = false := by
        by_cases e : j = i
        · subst e; exact hs
        · simpa [stop, Function.update_of_ne e] using hjs
      simpa [stop, hν] using h2 j hj this
    · have := running_stop (k := k) st hi hs
      simp only [stop, hν]
      omega
  | leave i j hi h0 hj hs hn =>
    refine ⟨r, hr, ⟨by simpa [stop, hν] using h1, fun j hj hjs => ?_, fun j hj => by simpa [stop, hν] using h3 j hj⟩, .inl rfl, ?_⟩
    · have : st j = false := by
        by_cases e : j = i
        · subst e; exact hs
        · simpa [stop, Function.update_of_ne e] using hjs
      simpa [stop, hν] using h2 j hj this
    · have := running_stop (k := k) st hi hs
      simp only [stop, hν]
      omega
  | lose i kept lost hl hi hs hn hne =>
    simp only [hν] at *
    subst h1
    refine ⟨r, hr, ⟨rfl, fun j hj hjs => ?_, fun j hj => ?_⟩, .inl rfl, ?_⟩
    · have e : j ≠ i := by rintro rfl; simp only at hjs hs; rw [hs] at hjs; cases hjs
      have := fun h => e (nxt_inj hk hj hi h)
      simpa [Function.update_of_ne this] using h2 j hj hjs
    · by_cases e : j = i
      · subst e
        have := h3 j hj
        rw [hn] at this
        simpa using (List.prefix_append kept lost).trans this
      · have := fun h => e (nxt_inj hk hj hi h)
        simpa [Function.update_of_ne this] using h3 j hj
    · have b := flying_update (k := k) ν (nxt_lt hk (i := i)) kept
      have := List.length_pos_iff.2 hne
      rw [hn, List.length_append] at b
      omega

theorem sim_reachable (hk : 2 ≤ k) {s : EndNet P} (h : Reachable benign lossy k s) : ∃ r, RingNet.Reachable benign k r ∧ Sim k r s := by
  induction h with
  | init pay => exact ⟨_, .init pay, rfl, fun _ _ _ => rfl, fun _ _ => List.prefix_refl _⟩
  | step _ hst ih =>
    obtain ⟨r, hr, hs⟩ := ih
    obtain ⟨r', hr', hs', -⟩ := sim_step hk hr hs hst
    exact ⟨r', hr', hs'⟩

/-- Without losses the ring is a ring without stops. -/
theorem ring_reachable {s : EndNet P} (h : Reachable benign false k s) : RingNet.Reachable benign k s.ring := by
  induction h with
  | init pay => exact .init pay
  | step _ hst ih =>
    cases hst with
    | start i b hi hs hn hb => exact .step ih (.start _ i b hi hn hb)
    | arrive i m rest hi hs hn => exact .step ih (.arrive _ i m rest hi hn)
    | handle i m rest hi hs hn => exact .step ih (.handle _ i m rest hi hn)
    | finish i hi hs hn => exact ih
    | leave i j hi h0 hj hs hn => exact ih
    | lose i kept lost hl => cases hl

/-- **C88 (what is delivered is right).** Whatever stops and whatever is lost: a node which delivers has the scores of all nodes. -/
theorem C88_right (hk : 2 ≤ k) {s : EndNet (List ℚ × Bool)} (h : Reachable true lossy k s) {i : Nat} (hi : i < k) (hd : s.ring.done i = 1)
    {j : Nat} (hj : j < k) : SubScores.subscores s.ring i j = some (s.ring.pay j) := by
  obtain ⟨r, hr, hs⟩ := sim_reachable hk h
  rw [hs.ring] at hd ⊢
  exact SubScores.C53_all_present hk hr hi hd hj

/-- **C88 (every run ends).** -/
theorem C88_terminates (hk : 2 ≤ k) {s : EndNet P} (h : Reachable benign lossy k s) : Acc (fun t s => Step benign lossy k s t) s := by
  obtain ⟨r, hr, hs⟩ := sim_reachable hk h
  clear h
  suffices H : ∀ n (r : RingNet P) (s : EndNet P), RingNet.Reachable benign k r → Sim k r s →
      2 * remaining k r + flying k s.ring.net + running k s.stopped < n → Acc (fun t s => Step benign lossy k s t) s from
    H _ r s hr hs (Nat.lt_succ_self _)
  intro n
  induction n with
  | zero => intro _ _ _ _ h; omega
  | succ n ih =>
    intro r s hr hs hn
    refine ⟨_, fun t ht => ?_⟩
    obtain ⟨r', hr', hs', -, hlt⟩ := sim_step hk hr hs ht
    exact ih r' t hr' hs' (by omega)

theorem handle_frame (r : RingNet P) (i : Nat) (m : RMsg P) (rest : List (RMsg P)) : (handleStep k r i m rest).started = r.started ∧
    (handleStep k r i m rest).pay = r.pay ∧ ∀ j ≠ i, (handleStep k r i m rest).mailbox j = r.mailbox j ∧
      (handleStep k r i m rest).processed j = r.processed j := by
  rcases hx : (r.proto i).received m with ⟨b, q⟩
  cases b
  · simp +contextual [handleStep, hx, Function.update_of_ne]
  · by_cases hr : q.isRunning <;> simp +contextual [handleStep, hx, hr, Function.update_of_ne]

/-- A node which is done has messages which have passed all others. -/
theorem started_of_done (hk : 2 ≤ k) {r : RingNet P} (h : RingNet.Reachable benign k r) {i : Nat} (hi : i < k) (hd : r.done i = 1) {j : Nat} (hj : j < k) :
    r.started j = true := by
  have hI := inv_reachable hk h
  obtain ⟨h1, h2⟩ := (C18_done_once hk h hi).2.1.1 hd
  have key : ∀ d < k - 1, k - 1 - d ≤ (r.processed ((i + k - d) % k)).length ∧ r.started ((i + k - d) % k) = true := by
    intro d
    induction d with
    | zero => intro _; rw [show i + k - 0 = i + k by omega, Nat.add_mod_right, Nat.mod_eq_of_lt hi]; exact ⟨by omega, h1⟩
    | succ d ih =>
      intro hd'
      obtain ⟨a, b⟩ := ih (by omega)
      have hlt : (i + k - d) % k < k := Nat.mod_lt _ (by omega)
      have hp : prv k ((i + k - d) % k) = (i + k - (d + 1)) % k := by
        unfold prv
        rw [Nat.mod_add_mod, show i + k - d + (k - 1) = i + k - (d + 1) + k by omega, Nat.add_mod_right]
      have hc := hI.count _ hlt
      rw [hp] at hc
      simp only [history, List.length_append, sentOn] at hc
      split at hc
      · next hs =>
        simp only [List.length_cons, List.length_take] at hc
        exact ⟨by omega, hs⟩
      · simp only [List.length_nil] at hc
        omega
  by_cases hij : j = i
  · rw [hij]; exact h1
  · have hex : ∃ d < k, d ≠ 0 ∧ (i + k - d) % k = j := by
      by_cases hlt : j < i
      · exact ⟨i - j, by omega, by omega, by rw [show i + k - (i - j) = j + k by omega, Nat.add_mod_right, Nat.mod_eq_of_lt hj]⟩
      · exact ⟨i + k - j, by omega, by omega, by rw [show i + k - (i + k - j) = j by omega, Nat.mod_eq_of_lt hj]⟩
    obtain ⟨d, hd1, hd0, rfl⟩ := hex
    by_cases e : d < k - 1
    · exact (key d e).2
    · obtain ⟨a, -⟩ := key (d - 1) (by omega)
      have hlt : (i + k - (d - 1)) % k < k := Nat.mod_lt _ (by omega)
      have hp : prv k ((i + k - (d - 1)) % k) = (i + k - d) % k := by
        unfold prv
        rw [Nat.mod_add_mod, show i + k - (d - 1) + (k - 1) = i + k - d + k by omega, Nat.add_mod_right]
      have hc := hI.count _ hlt
      rw [hp] at hc
      simp only [history, List.length_append, sentOn] at hc
      split at hc
      · assumption
      · simp only [List.length_nil] at hc
        omega

/-- **C88 (nobody stops before all are in the last stage).** -/
theorem C88_last_stage (hk : 2 ≤ k) {s : EndNet P} (h : Reachable benign lossy k s) {i : Nat} (hi : i < k) (hs : s.ring.done i = 1 ∨ s.stopped i = true) {j : Nat}
    (hj : j < k) : s.ring.started j = true := by
  have hdone : ∀ {s : EndNet P}, Reachable benign lossy k s → ∀ {i}, i < k → s.ring.done i = 1 → s.ring.started j = true := by
    intro s h i hi hd
    obtain ⟨r, hr, hsim⟩ := sim_reachable hk h
    rw [hsim.ring] at hd ⊢
    exact started_of_done hk hr hi hd hj
  have hmono : ∀ {s t : EndNet P}, Step benign lossy k s t → s.ring.started j = true → t.ring.started j = true := by
    intro s t hst hs
    cases hst with
    | start l b hl =>
      by_cases e : j = l
      · subst e; simp [startStep]
      · simpa [startStep, Function.update_of_ne e] using hs
    | arrive => exact hs
    | handle l m rest => simpa [(handle_frame (k := k) s.ring l m rest).1] using hs
    | finish => exact hs
    | leave => exact hs
    | lose => exact hs
  rcases hs with hd | hs
  · exact hdone h hi hd
  · induction h generalizing i with
    | init pay => cases hs
    | step hr hst ih =>
      rename_i s t
      have keep : ∀ {i}, i < k → s.stopped i = true → t.ring.started j = true := fun hi h => hmono hst (ih hi h)
      cases hst with
      | start => exact keep hi hs
      | arrive => exact keep hi hs
      | handle => exact keep hi hs
      | finish l hl hls hd => exact hdone (s := s) hr hl hd
      | leave l m hl h0 hm hls hms => exact keep hm hms
      | lose => exact keep hi hs

/-! ### Runs in which nodes do not deliver -/

/-- All nodes have entered the stage and nothing else has happened. -/
theorem all_started (pay : Nat → P) : ∀ n ≤ k, ∃ r : RingNet P, Reachable true false k ⟨r, fun _ => false⟩ ∧ (∀ i, r.started i = decide (i < n)) ∧
    (∀ i, (r.proto i).buffer = [] ∧ r.mailbox i = [] ∧ r.processed i = []) ∧ r.pay = pay := by
  intro n
  induction n with
  | zero => intro _; exact ⟨_, .init pay, fun i => by simp [RingNet.init], fun i => by simp [RingNet.init], rfl⟩
  | succ n ih =>
    intro hn
    obtain ⟨r, hr, h1, h2, h3⟩ := ih (by omega)
    refine ⟨startStep k r n (pay n), .step hr (.start _ n (pay n) (by omega) rfl (by simp [h1]) fun _ => .inl (h2 n).2.1), fun i => ?_, fun i => ?_, ?_⟩
    · by_cases e : i = n
      · subst e; simp [startStep]
      · simp only [startStep, Function.update_of_ne e, h1]
        congr 1
        rw [eq_iff_iff]
        omega
    · by_cases e : i = n
      · subst e; simp [startStep, Proto.start, Proto.resolveBuffer, Proto.sent, h2]
      · simpa [startStep, Function.update_of_ne e] using h2 i
    · simp [startStep, h3]

/-- More is possible without the restrictions. -/
theorem Reachable.mono {s : EndNet P} (h : Reachable true false k s) : Reachable benign lossy k s := by
  induction h with
  | init pay => exact .init pay
  | step _ hst ih =>
    cases hst with
    | start i b hi hs hn hb => exact .step ih (.start _ i b hi hs hn fun _ => hb rfl)
    | arrive i m rest hi hs hn => exact .step ih (.arrive _ i m rest hi hs hn)
    | handle i m rest hi hs hn => exact .step ih (.handle _ i m rest hi hs hn)
    | finish i hi hs hn => exact .step ih (.finish _ i hi hs hn)
    | leave i j hi h0 hj hs hn => exact .step ih (.leave _ i j hi h0 hj hs hn)
    | lose i kept lost hl => cases hl

/-- Everything is handled, except what node `c` has sent. -/
theorem drained (hk : 2 ≤ k) (c : Nat) (pay : Nat → P) : ∃ r : RingNet P, Reachable true false k ⟨r, fun _ => false⟩ ∧ r.pay = pay ∧
    (∀ i < k, r.started i = true) ∧ (∀ i < k, r.mailbox i = []) ∧ (∀ i < k, i ≠ nxt k c → r.net i = []) ∧ r.processed (nxt k c) = [] := by
  obtain ⟨r, hr, h1, h2, h3⟩ := all_started (k := k) pay k le_rfl
  suffices H : ∀ n (r : RingNet P), Reachable true false k ⟨r, fun _ => false⟩ → remaining k r < n → r.pay = pay →
      (∀ i < k, r.started i = true) → r.mailbox (nxt k c) = [] → r.processed (nxt k c) = [] → ∃ r : RingNet P, Reachable true false k ⟨r, fun _ => false⟩ ∧
        r.pay = pay ∧ (∀ i < k, r.started i = true) ∧ (∀ i < k, r.mailbox i = []) ∧ (∀ i < k, i ≠ nxt k c → r.net i = []) ∧
        r.processed (nxt k c) = [] from
    H _ r hr (Nat.lt_succ_self _) h3 (fun i hi => by simp [h1, hi]) (h2 _).2.1 (h2 _).2.2
  intro n
  induction n with
  | zero => intro _ _ h; omega
  | succ n ih =>
    intro r hr hn hp hs hm hpr
    have hr' : RingNet.Reachable true k r := ring_reachable hr
    by_cases g1 : ∃ i < k, r.mailbox i ≠ []
    · obtain ⟨i, hi, hne⟩ := g1
      obtain ⟨m, rest, hmr⟩ := List.exists_cons_of_ne_nil hne
      have hlt := C18_terminates hk hr' (.handle r i m rest hi hmr)
      obtain ⟨f1, f2, f3⟩ := handle_frame (k := k) r i m rest
      have hic : nxt k c ≠ i := by rintro rfl; exact hne hm
      exact ih (handleStep k r i m rest) (.step hr (.handle _ i m rest hi rfl hmr)) (by omega) (f2.trans hp) (fun j hj => by rw [f1]; exact hs j hj)
        ((f3 _ hic).1.trans hm) ((f3 _ hic).2.trans hpr)
    · by_cases g2 : ∃ i < k, i ≠ nxt k c ∧ r.net i ≠ []
      · obtain ⟨i, hi, hic, hne⟩ := g2
        obtain ⟨m, rest, hmr⟩ := List.exists_cons_of_ne_nil hne
        have hlt := C18_terminates hk hr' (.arrive r i m rest hi hmr)
        exact ih (arriveStep r i m rest) (.step hr (.arrive _ i m rest hi rfl hmr)) (by omega) hp hs (by simpa [arriveStep, Function.update_of_ne hic.symm] using hm) hpr
      · push Not at g1 g2
        exact ⟨r, hr, hp, hs, g1, g2, hpr⟩

/-- A run in which node `c` has finished and nobody has handled its message. -/
theorem first_done (hk : 2 ≤ k) {c : Nat} (hc : c < k) (pay : Nat → P) : ∃ r : RingNet P, Reachable true false k ⟨r, fun _ => false⟩ ∧ r.pay = pay ∧
    (∀ i < k, r.started i = true) ∧ (∀ i < k, r.mailbox i = []) ∧ (∀ i < k, i ≠ nxt k c → r.net i = []) ∧
    r.done c = 1 ∧ ∀ i < k, i ≠ c → r.done i = 0 := by
  obtain ⟨r, hr, hp, hs, hm, hn, hpr⟩ := drained hk c pay
  have hI : Inv k r := inv_reachable hk (ring_reachable hr)
  have key : ∀ d ≤ k - 1, (r.processed ((c + 1 + d) % k)).length = d := by
    intro d
    induction d with
    | zero => intro _; rw [show (c + 1 + 0) % k = nxt k c from rfl, hpr]; rfl
    | succ d ih =>
      intro hd
      have hlt : (c + 1 + d) % k < k := Nat.mod_lt _ (by omega)
      have hj : (c + 1 + (d + 1)) % k = nxt k ((c + 1 + d) % k) := by
        unfold nxt
        rw [Nat.mod_add_mod, Nat.add_assoc (c + 1) d 1]
      have hne : (c + 1 + d) % k ≠ c := by
        intro h
        have h1 := Nat.div_add_mod (c + 1 + d) k
        rw [h] at h1
        have h2 : k * ((c + 1 + d) / k) = d + 1 := by omega
        rcases Nat.eq_zero_or_pos ((c + 1 + d) / k) with h3 | h3
        · rw [h3] at h2; omega
        · have := Nat.le_mul_of_pos_right k h3
          omega
      have h1 := hI.count _ (nxt_lt (i := (c + 1 + d) % k) hk)
      have h2 := (hI.active _ (nxt_lt (i := (c + 1 + d) % k) hk) (hs _ (nxt_lt hk))).2.2.2.1
      rw [prv_nxt hk hlt] at h1
      simp only [history, hm _ (nxt_lt hk), h2, hn _ (nxt_lt hk) fun h => hne (nxt_inj hk hlt hc h), sentOn, hs _ hlt, if_true,
        List.append_nil, List.length_cons, List.length_take, ih (by omega)] at h1
      rw [hj]
      omega
  refine ⟨r, hr, hp, hs, hm, hn, ?_, fun i hi hic => ?_⟩
  · have h1 := key (k - 1) le_rfl
    rw [show c + 1 + (k - 1) = c + k by omega, Nat.add_mod_right, Nat.mod_eq_of_lt hc] at h1
    rw [(hI.active c hc (hs c hc)).2.2.2.2, if_pos h1]
  · have h1 : ∃ d < k - 1, (c + 1 + d) % k = i := by
      by_cases h : i < c
      · exact ⟨k + i - c - 1, by omega, by rw [show c + 1 + (k + i - c - 1) = i + k by omega, Nat.add_mod_right, Nat.mod_eq_of_lt hi]⟩
      · exact ⟨i - c - 1, by omega, by rw [show c + 1 + (i - c - 1) = i by omega, Nat.mod_eq_of_lt hi]⟩
    obtain ⟨d, hd, rfl⟩ := h1
    rw [(hI.active _ hi (hs _ hi)).2.2.2.2, key d hd.le, if_neg (by omega)]

/-- Node `c` stops, and then all others with the role `Sub`. -/
theorem all_leave {c : Nat} (hc : c < k) {r : RingNet P} (h : Reachable true false k ⟨r, fun _ => false⟩) (hd : r.done c = 1) :
    ∀ n ≤ k, Reachable true false k ⟨r, fun i => decide (i = c ∨ (0 < i ∧ i < n))⟩ := by
  intro n
  induction n with
  | zero =>
    intro _
    have := Reachable.step h (.finish _ c hc rfl hd)
    convert this using 1
    simp only [stop, EndNet.mk.injEq, true_and]
    funext i
    by_cases e : i = c
    · subst e; simp
    · simp [e]
  | succ n ih =>
    intro hn
    by_cases e : n = c ∨ n = 0
    · have := ih (by omega)
      convert this using 3
      rename_i i
      rw [decide_eq_decide]
      omega
    · push Not at e
      have := Reachable.step (ih (by omega)) (.leave _ n c (by omega) e.2 hc (by simp [e.1]) (by simp))
      convert this using 1
      simp only [stop, EndNet.mk.injEq, true_and]
      funext i
      by_cases e' : i = n
      · subst e'; simp; omega
      · rw [Function.update_of_ne e', decide_eq_decide]
        omega

/-- **C88 (the others need not deliver).** On any number of nodes, whatever the scores: there is a run which ends with the main node having delivered and no
other one, although nothing is lost. -/
theorem C88_subs (hk : 2 ≤ k) (pay : Nat → P) : ∃ s : EndNet P, Reachable benign false k s ∧ Over benign false k s ∧ s.ring.pay = pay ∧
    s.ring.done 0 = 1 ∧ ∀ i < k, i ≠ 0 → s.ring.done i = 0 := by
  obtain ⟨r, hr, hp, hs, hm, hn, hd, hd'⟩ := first_done hk (c := 0) (by omega) pay
  refine ⟨_, (all_leave (by omega) hr hd k le_rfl).mono, ?_, hp, hd, hd'⟩
  have hstop : ∀ i < k, decide (i = 0 ∨ (0 < i ∧ i < k)) = true := fun i hi => by simp; omega
  rintro ⟨t, ht⟩
  cases ht with
  | start i b hi h => simp only [hstop i hi] at h; cases h
  | arrive i m rest hi h => simp only [hstop i hi] at h; cases h
  | handle i m rest hi h => simp only [hstop i hi] at h; cases h
  | finish i hi h => simp only [hstop i hi] at h; cases h
  | leave i j hi h0 hj h => simp only [hstop i hi] at h; cases h
  | lose i kept lost hl => cases hl

/-- **C88 (the main node need not deliver).** On three or more nodes, or if messages of ended processes can be lost: whatever the scores, there is a run which ends with node 1
having delivered and the main node waiting. -/
theorem C88_main_waits (hk : 2 ≤ k) (h3 : 3 ≤ k ∨ lossy = true) (pay : Nat → P) : ∃ s : EndNet P, Reachable benign lossy k s ∧ Over benign lossy k s ∧
    s.ring.pay = pay ∧ s.ring.done 1 = 1 ∧ s.ring.done 0 = 0 ∧ s.stopped 0 = false := by
  obtain ⟨r, hr, hp, hs, hm, hn, hd, hd'⟩ := first_done hk (c := 1) (by omega) pay
  have hall := all_leave (by omega) hr hd k le_rfl
  have hstop : ∀ i < k, i ≠ 0 → decide (i = 1 ∨ (0 < i ∧ i < k)) = true := fun i hi h0 => by simp; omega
  have hover : ∀ r' : RingNet P, r'.started = r.started → r'.mailbox = r.mailbox → r'.done = r.done → r'.net 0 = [] →
      (lossy = true → ∀ i < k, r'.net i = []) → Over benign lossy k ⟨r', fun i => decide (i = 1 ∨ (0 < i ∧ i < k))⟩ := by
    rintro r' e1 e2 e3 e4 e5 ⟨t, ht⟩
    have h0 : ∀ i < k, decide (i = 1 ∨ (0 < i ∧ i < k)) = false → i = 0 := by
      intro i hi h
      by_contra h0
      rw [hstop i hi h0] at h
      cases h
    cases ht with
    | start i b hi h hb => simp only [e1, hs i hi] at hb; cases hb
    | arrive i m rest hi h hb =>
      obtain rfl := h0 i hi h
      simp only [e4] at hb
      cases hb
    | handle i m rest hi h hb => simp only [e2, hm i hi] at hb; cases hb
    | finish i hi h hb =>
      obtain rfl := h0 i hi h
      simp only [e3, hd' 0 hi (by omega)] at hb
      cases hb
    | leave i j hi hi0 hj h => exact hi0 (h0 i hi h)
    | lose i kept lost hl hi h hb hne =>
      simp only [e5 hl _ (nxt_lt hk)] at hb
      exact hne (List.append_eq_nil_iff.1 hb.symm).2
  have n1 : nxt k 1 = if k = 2 then 0 else 2 := by
    rw [nxt_eq (by omega)]
    split <;> split <;> omega
  by_cases hl : lossy = true
  · by_cases hne : r.net (nxt k 1) = []
    · refine ⟨_, hall.mono, hover r rfl rfl rfl ?_ ?_, hp, hd, hd' 0 (by omega) (by omega), by simp⟩
      · by_cases e : 0 = nxt k 1
        · rw [e]; exact hne
        · exact hn 0 (by omega) e
      · intro _ i hi
        by_cases e : i = nxt k 1
        · rw [e]; exact hne
        · exact hn i hi e
    · refine ⟨_, .step hall.mono (.lose _ 1 [] _ hl (by omega) (by simp) rfl hne),
        hover { r with net := Function.update r.net (nxt k 1) [] } rfl rfl rfl ?_ ?_, hp, hd, hd' 0 (by omega) (by omega), by simp⟩
      · by_cases e : 0 = nxt k 1
        · simp [e]
        · simpa [Function.update_of_ne e] using hn 0 (by omega) e
      · intro _ i hi
        by_cases e : i = nxt k 1
        · simp [e]
        · simpa [Function.update_of_ne e] using hn i hi e
  · refine ⟨_, hall.mono, hover r rfl rfl rfl (hn 0 (by omega) ?_) (fun h => absurd h hl), hp, hd, hd' 0 (by omega) (by omega), by simp⟩
    rw [n1, if_neg (by have := h3.resolve_right hl; omega)]
    omega

/-! ### Runs in which they do -/

theorem done_mono (hk : 2 ≤ k) {s t : EndNet P} (h : Reachable benign false k s) (hst : Step benign false k s t) {i : Nat} (hi : i < k)
    (hd : s.ring.done i = 1) : t.ring.done i = 1 := by
  have ht := (C18_done_once hk (ring_reachable (.step h hst)) hi).1
  have key : s.ring.done i ≤ t.ring.done i := by
    cases hst with
    | start => exact le_rfl
    | arrive => exact le_rfl
    | handle j m rest hj hs hm =>
      simp only [handleStep]
      split
      · exact le_rfl
      · split
        · exact le_rfl
        · by_cases e : i = j
          · subst e; simp
          · simp [Function.update_of_ne e]
    | finish => exact le_rfl
    | leave => exact le_rfl
    | lose i kept lost hl => cases hl
  omega

/-- A process ends after it or another one has delivered, the main node only after itself. -/
theorem stopped_cause (hk : 2 ≤ k) {s : EndNet P} (h : Reachable benign false k s) {i : Nat} (hi : i < k) (hs : s.stopped i = true) :
    s.ring.done i = 1 ∨ (i ≠ 0 ∧ ∃ j < k, j ≠ i ∧ s.ring.done j = 1) := by
  induction h generalizing i with
  | init pay => cases hs
  | step hr hst ih =>
    rename_i s t
    have hm : ∀ {i}, i < k → s.ring.done i = 1 → t.ring.done i = 1 := fun hi hd => done_mono hk hr hst hi hd
    have keep : s.stopped i = true → t.ring.done i = 1 ∨ (i ≠ 0 ∧ ∃ j < k, j ≠ i ∧ t.ring.done j = 1) := by
      intro h
      rcases ih hi h with h1 | ⟨h0, j, hj, hji, h1⟩
      · exact .inl (hm hi h1)
      · exact .inr ⟨h0, j, hj, hji, hm hj h1⟩
    cases hst with
    | start => exact keep hs
    | arrive => exact keep hs
    | handle => exact keep hs
    | finish j hj hjs hd =>
      by_cases e : i = j
      · subst e; exact .inl hd
      · exact keep (by simpa [stop, Function.update_of_ne e] using hs)
    | leave j l hj h0 hl hjs hls =>
      by_cases e : i = j
      · subst e
        rcases ih hl hls with h1 | ⟨-, m, hm', -, h1⟩
        · by_cases e : l = i
          · subst e; exact .inl h1
          · exact .inr ⟨h0, l, hl, e, h1⟩
        · by_cases e : m = i
          · subst e; exact .inl h1
          · exact .inr ⟨h0, m, hm', e, h1⟩
      · exact keep (by simpa [stop, Function.update_of_ne e] using hs)
    | lose i kept lost hl => cases hl

/-- **C88 (when everybody delivers).** If nothing is lost: a run ends with all nodes having delivered exactly if no process was ended before it had delivered. -/
theorem C88_all_iff (hk : 2 ≤ k) {s : EndNet P} (h : Reachable benign false k s) (ho : Over benign false k s) :
    (∀ i < k, s.ring.done i = 1) ↔ ∀ i < k, s.stopped i = true → s.ring.done i = 1 := by
  refine ⟨fun h i hi _ => h i hi, fun hst => ?_⟩
  have hr := ring_reachable h
  have hI := inv_reachable hk hr
  have hcase : ∀ i < k, s.ring.started i = true ∧ s.ring.mailbox i = [] ∧ s.ring.net i = [] := by
    intro i hi
    by_cases hs : s.stopped i = true
    · obtain ⟨h1, h2⟩ := (C18_done_once hk hr hi).2.1.1 (hst i hi hs)
      have h3 := history_length hk hI hi
      simp only [history, List.length_append] at h3
      exact ⟨h1, List.length_eq_zero_iff.1 (by omega), List.length_eq_zero_iff.1 (by omega)⟩
    · have hs : s.stopped i = false := by simpa using hs
      have hm : s.ring.mailbox i = [] := by
        by_contra hne
        obtain ⟨m, rest, hmr⟩ := List.exists_cons_of_ne_nil hne
        exact ho ⟨_, .handle s i m rest hi hs hmr⟩
      refine ⟨?_, hm, ?_⟩
      · by_contra hne
        exact ho ⟨_, .start s i (s.ring.pay i) hi hs (by simpa using hne) fun _ => .inl hm⟩
      · by_contra hne
        obtain ⟨m, rest, hmr⟩ := List.exists_cons_of_ne_nil hne
        exact ho ⟨_, .arrive s i m rest hi hs hmr⟩
  exact fun i hi => C18_quiescent_done hk hr (fun j hj => (hcase j hj).1) (fun j hj => (hcase j hj).2) hi

/-- **C88 (exactly when the main node always delivers).** In a cluster of `k ≥ 2` nodes every run ends with the main node having delivered exactly if there are two nodes and nothing
is lost when a process ends. -/
theorem C88_main_iff (hk : 2 ≤ k) [Nonempty P] : (∀ s : EndNet P, Reachable benign lossy k s → Over benign lossy k s → s.ring.done 0 = 1) ↔
    k = 2 ∧ lossy = false := by
  constructor
  · intro h
    by_contra hcon
    obtain ⟨p⟩ := ‹Nonempty P›
    obtain ⟨s, h1, h2, -, -, h3, -⟩ := C88_main_waits (benign := benign) (lossy := lossy) hk (by
      by_cases hl : lossy = true
      · exact .inr hl
      · exact .inl (by
          by_contra h3
          exact hcon ⟨by omega, by simpa using hl⟩)) (fun _ => p)
    rw [h s h1 h2] at h3
    cases h3
  · rintro ⟨rfl, rfl⟩ s h ho
    by_contra hne
    have h0 : ∀ i < 2, s.stopped i = true → s.ring.done i = 1 := by
      intro i hi hs
      rcases stopped_cause hk h hi hs with h1 | ⟨h1, j, hj, hji, h2⟩
      · exact h1
      · have : j = 0 := by omega
        subst this
        exact absurd h2 hne
    exact hne ((C88_all_iff hk h ho).2 h0 0 (by omega))

/-- The hypotheses are satisfiable: three nodes, the main node waits for ever, although node 1 has delivered. -/
example : ∃ s : EndNet Nat, Reachable true false 3 s ∧ Over true false 3 s ∧ s.ring.pay = id ∧ s.ring.done 1 = 1 ∧ s.ring.done 0 = 0 := by
  obtain ⟨s, h1, h2, h3, h4, h5, -⟩ := C88_main_waits (benign := true) (lossy := false) (k := 3) (by decide) (.inl le_rfl) (id : Nat → Nat)
  exact ⟨s, h1, h2, h3, h4, h5⟩

end EndNet
end S2G
