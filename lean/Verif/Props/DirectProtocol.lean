import Verif.Model.Protocols
import Mathlib.Data.List.Perm.Basic
import Mathlib.Data.List.Perm.Subperm
import Mathlib.Data.List.Nodup

/-!
# C17: direct exchange, C19: helper pool protocol
-/

namespace S2G
namespace Proto
variable {T : Type}

@[simp] theorem sentN_nTotal (p : Proto T) (k : Nat) : (p.sentN k).nTotal = p.nTotal := by
  induction k with
  | zero => rfl
  | succ k ih => simpa [sentN, sent] using ih
@[simp] theorem sentN_nReceived (p : Proto T) (k : Nat) : (p.sentN k).nReceived = p.nReceived := by
  induction k with
  | zero => rfl
  | succ k ih => simpa [sentN, sent] using ih
@[simp] theorem sentN_nSent (p : Proto T) (k : Nat) : (p.sentN k).nSent = p.nSent + k := by
  induction k with
  | zero => rfl
  | succ k ih => simp [sentN, sent, ih]; omega
@[simp] theorem sentN_buffer (p : Proto T) (k : Nat) : (p.sentN k).buffer = p.buffer := by
  induction k with
  | zero => rfl
  | succ k ih => simpa [sentN, sent] using ih

end Proto

namespace DirectNet
variable {P : Type}

/-- Everything that is on its way to node `i`, waits in its buffer or was processed. -/
def account (s : DirectNet P) (i : Nat) : List (DMsg P) :=
  s.pool.filter (fun m => m.dst = i) ++ (s.proto i).buffer ++ s.processed i

theorem mem_peers {incl : Bool} {n i j : Nat} :
    j ∈ peers incl n i ↔ j < n ∧ (incl = true ∨ j ≠ i) := by simp [peers]

theorem nodup_peers {incl : Bool} {n i : Nat} : (peers incl n i).Nodup := List.nodup_range.filter _

theorem length_peers {incl : Bool} {n i : Nat} (h : i < n) :
    (peers incl n i).length = total incl n := by
  cases incl with
  | true => simp [peers, total]
  | false =>
    have hp : (i :: peers false n i).Perm (List.range n) := by
      refine (List.perm_ext_iff_of_nodup ?_ List.nodup_range).2 ?_
      · refine List.nodup_cons.2 ⟨?_, nodup_peers⟩
        simp [mem_peers]
      · intro a; simp only [List.mem_cons, mem_peers, List.mem_range]
        constructor
        · rintro (rfl | h') <;> grind
        · intro ha; by_cases hh : a = i <;> grind
    have := hp.length_eq
    simp [total] at this ⊢; omega

/-- Inductive invariant of the exchange. -/
structure Inv (incl : Bool) (n : Nat) (s : DirectNet P) : Prop where
  dst : ∀ m ∈ s.pool, m.dst < n
  nodup : ∀ i < n, ((account s i).map DMsg.src).Nodup
  mem : ∀ i < n, ∀ m, m ∈ account s i ↔
    (m.dst = i ∧ m.src < n ∧ (incl = true ∨ m.src ≠ i) ∧ s.started m.src = true ∧
      m.body = s.pay m.src i)
  idle : ∀ i < n, s.started i = false →
    (s.proto i).nTotal = 0 ∧ (s.proto i).nReceived = 0 ∧ (s.proto i).nSent = 0 ∧
      s.processed i = [] ∧ s.done i = 0
  active : ∀ i < n, s.started i = true →
    (s.proto i).nTotal = total incl n ∧ (s.proto i).nReceived = (s.processed i).length ∧
      (s.proto i).nSent = total incl n ∧ (s.proto i).buffer = [] ∧
      s.done i = if (s.processed i).length = total incl n then 1 else 0

theorem inv_init (incl : Bool) (n : Nat) (pay : Nat → Nat → P) : Inv incl n (init pay) := by
  constructor <;> simp [init, account]

theorem account_length {incl : Bool} {n : Nat} {s : DirectNet P} (h : Inv incl n s) {i : Nat}
    (hi : i < n) : (account s i).length ≤ total incl n := by
  have hsub : ((account s i).map DMsg.src).Subperm (peers incl n i) := by
    refine (h.nodup i hi).subperm ?_
    intro a ha
    obtain ⟨m, hm, rfl⟩ := List.mem_map.1 ha
    have := (h.mem i hi m).1 hm
    exact mem_peers.2 ⟨this.2.1, this.2.2.1⟩
  have := hsub.length_le
  rwa [List.length_map, length_peers hi] at this

theorem out_filter {incl : Bool} {n i i' : Nat} (hi' : i' < n) (hne : incl = true ∨ i' ≠ i)
    (f : Nat → P) :
    ((peers incl n i).map (fun j => DMsg.mk i j (f j))).filter (fun m => m.dst = i') =
      [DMsg.mk i i' (f i')] := by
  rw [List.filter_map]
  have : (peers incl n i).filter
      ((fun m : DMsg P => decide (m.dst = i')) ∘ fun j => DMsg.mk i j (f j)) = [i'] := by
    have hnd : ((peers incl n i).filter ((fun m : DMsg P => decide (m.dst = i')) ∘
      fun j => DMsg.mk i j (f j))).Nodup := nodup_peers.filter _
    refine List.perm_singleton.1 ((List.perm_ext_iff_of_nodup hnd (List.nodup_singleton _)).2 ?_)
    intro a
    simp only [List.mem_filter, mem_peers, Function.comp, List.mem_singleton, decide_eq_true_eq]
    constructor
    · exact fun h => h.2
    · rintro rfl; exact ⟨⟨hi', hne⟩, rfl⟩
  rw [this]; rfl

theorem out_filter_nil {incl : Bool} {n i i' : Nat} (hne : ¬ (incl = true ∨ i' ≠ i))
    (f : Nat → P) :
    ((peers incl n i).map (fun j => DMsg.mk i j (f j))).filter (fun m => m.dst = i') = [] := by
  rw [List.filter_eq_nil_iff]
  intro m hm
  obtain ⟨j, hj, rfl⟩ := List.mem_map.1 hm
  have := (mem_peers.1 hj).2
  simp only [decide_eq_true_eq]
  rintro rfl
  exact hne this

theorem inv_start {incl : Bool} {n : Nat} {s : DirectNet P} (h : Inv incl n s) {i : Nat}
    (f : Nat → P) (hi : i < n) (hs : s.started i = false) : Inv incl n (startStep incl n s i f) := by
  obtain ⟨h1, h2, h3, h4, h5⟩ := h.idle i hi hs
  -- buffered messages are addressed to `i`
  have hbuf : ∀ m ∈ (s.proto i).buffer, m.dst = i := fun m hm =>
    ((h.mem i hi m).1 (by simp [account, hm])).1
  -- the account before the own messages are added
  have hacc : ∀ i' < n, (account (startStep incl n s i f) i').Perm
      (((peers incl n i).map (fun j => DMsg.mk i j (f j))).filter (fun m => decide (m.dst = i')) ++
        account s i') := by
    intro i' hi'
    by_cases hne : i' = i
    · subst hne
      have hb : (s.proto i').buffer.filter (fun m => decide (m.dst = i')) = (s.proto i').buffer :=
        List.filter_eq_self.2 (by simpa using hbuf)
      simp only [account, startStep, Proto.resolveBuffer, Proto.start, List.filter_append,
        Function.update_self, Proto.sentN_buffer, h4, List.append_nil, hb]
      exact List.perm_append_comm
    · have hb : (s.proto i).buffer.filter (fun m => decide (m.dst = i')) = [] := by
        rw [List.filter_eq_nil_iff]; intro m hm; simp [hbuf m hm, Ne.symm hne]
      simp only [account, startStep, Proto.resolveBuffer, Proto.start, List.filter_append,
        Function.update_of_ne hne, hb, List.append_nil]
      simp only [← List.append_assoc]
      exact List.Perm.append_right _ (List.Perm.append_right _ List.perm_append_comm)
  have hnew : ∀ i' < n, i ∉ (account s i').map DMsg.src := by
    intro i' hi' hmem
    obtain ⟨m, hm, hmi⟩ := List.mem_map.1 hmem
    have := ((h.mem i' hi' m).1 hm).2.2.2.1
    rw [hmi, hs] at this
    exact absurd this (by simp)
  constructor
  · intro m hm
    simp only [startStep, Proto.resolveBuffer, List.mem_append, Proto.start] at hm
    rcases hm with (hm | hm) | hm
    · exact h.dst m hm
    · rw [hbuf m hm]; exact hi
    · obtain ⟨j, hj, rfl⟩ := List.mem_map.1 hm
      exact (mem_peers.1 hj).1
  · intro i' hi'
    rw [((hacc i' hi').map _).nodup_iff]
    by_cases hne : incl = true ∨ i' ≠ i
    · rw [out_filter hi' hne]
      exact List.nodup_cons.2 ⟨hnew i' hi', h.nodup i' hi'⟩
    · rw [out_filter_nil hne]; exact h.nodup i' hi'
  · intro i' hi' m
    rw [(hacc i' hi').mem_iff, List.mem_append, h.mem i' hi' m]
    simp only [startStep]
    by_cases hm : m.src = i
    · rw [hm]
      simp only [hs, Function.update_self]
      by_cases hne : incl = true ∨ i' ≠ i
      · rw [out_filter hi' hne]
        simp only [List.mem_singleton]
        constructor
        · rintro (rfl | ⟨_, _, _, d, _⟩)
          · exact ⟨rfl, hi, hne.imp id Ne.symm, trivial, rfl⟩
          · exact absurd d (by simp)
        · rintro ⟨a, _, _, _, e⟩
          left
          cases m; simp_all
      · rw [out_filter_nil hne]
        push Not at hne
        simp [hne.1, hne.2]
    · rw [Function.update_of_ne hm, Function.update_of_ne hm]
      constructor
      · rintro (hmem | h')
        · obtain ⟨j, _, rfl⟩ := List.mem_map.1 (List.mem_of_mem_filter hmem)
          exact absurd rfl hm
        · exact h'
      · exact Or.inr
  · intro i' hi' hs'
    by_cases hne : i' = i
    · subst hne; simp [startStep] at hs'
    · simp only [startStep, Function.update_of_ne hne] at hs' ⊢
      obtain ⟨a, b, c, d, e⟩ := h.idle i' hi' hs'
      refine ⟨a, b, c, d, ?_⟩
      split
      · rw [Function.update_of_ne hne]; exact e
      · exact e
  · intro i' hi' hs'
    by_cases hne : i' = i
    · subst hne
      simp only [startStep, Proto.resolveBuffer, Proto.start, Function.update_self,
        Proto.sentN_nTotal, Proto.sentN_nReceived, Proto.sentN_nSent, Proto.sentN_buffer,
        List.length_map, length_peers hi', h2, h3, h4, List.length_nil, true_and,
        List.isEmpty_iff, Nat.zero_add]
      have hl : (List.map (fun j => DMsg.mk i' j (f j)) (peers incl n i') = []) ↔
          0 = total incl n := by
        rw [← List.length_eq_zero_iff, List.length_map, length_peers hi']; omega
      by_cases h0 : 0 = total incl n
      · rw [if_pos (hl.2 h0), if_pos h0, Function.update_self, h5]
      · rw [if_neg (fun h => h0 (hl.1 h)), if_neg h0, h5]
    · simp only [startStep, Function.update_of_ne hne] at hs' ⊢
      obtain ⟨a, b, c, d, e⟩ := h.active i' hi' hs'
      refine ⟨a, b, c, d, ?_⟩
      split
      · rw [Function.update_of_ne hne]; exact e
      · exact e

theorem inv_handle {incl : Bool} {n : Nat} {s : DirectNet P} (h : Inv incl n s) {pre post : List (DMsg P)} {m : DMsg P}
    (hp : s.pool = pre ++ m :: post) : Inv incl n (handleStep s m (pre ++ post)) := by
  have hmp : m ∈ s.pool := by simp [hp]
  have hi : m.dst < n := h.dst m hmp
  have hdst : ∀ x ∈ pre ++ post, x.dst < n := by
    intro x hx; apply h.dst; rw [hp]; simp at hx ⊢; tauto
  have hother : ∀ i', i' ≠ m.dst →
      s.pool.filter (fun x => decide (x.dst = i')) =
        (pre ++ post).filter (fun x => decide (x.dst = i')) := by
    intro i' hne
    simp [hp, Ne.symm hne]
  have hself : (s.pool.filter (fun x => decide (x.dst = m.dst))).Perm
      (m :: (pre ++ post).filter (fun x => decide (x.dst = m.dst))) := by
    rw [hp, List.filter_append, List.filter_cons_of_pos (by simp), List.filter_append]
    exact List.perm_middle
  by_cases hs : s.started m.dst = true
  · obtain ⟨a, b, c, d, e⟩ := h.active _ hi hs
    have hlen := account_length h hi
    have hlt : (s.processed m.dst).length < total incl n := by
      have := hself.length_eq
      simp only [account, List.length_append, List.length_cons] at hlen this
      omega
    have hrun : (s.proto m.dst).isRunning = true := by simp [Proto.isRunning, a, b, hlt]
    have hst : handleStep s m (pre ++ post) =
        { s with
          proto := Function.update s.proto m.dst
            { s.proto m.dst with nReceived := (s.proto m.dst).nReceived + 1 }
          processed := Function.update s.processed m.dst (s.processed m.dst ++ [m])
          done := if (s.processed m.dst).length + 1 < total incl n then s.done
            else Function.update s.done m.dst (s.done m.dst + 1)
          pool := pre ++ post } := by
      simp only [handleStep, Proto.received, hrun, if_true]
      congr 1
      simp [Proto.isRunning, a, b, c]
    rw [hst]
    have hacc : ∀ i' < n, (account { s with
          proto := Function.update s.proto m.dst
            { s.proto m.dst with nReceived := (s.proto m.dst).nReceived + 1 }
          processed := Function.update s.processed m.dst (s.processed m.dst ++ [m])
          done := if (s.processed m.dst).length + 1 < total incl n then s.done
            else Function.update s.done m.dst (s.done m.dst + 1)
          pool := pre ++ post } i').Perm (account s i') := by
      intro i' hi'
      by_cases hne : i' = m.dst
      · subst hne
        simp only [account, Function.update_self]
        have := hself.symm
        rw [← List.append_assoc]
        refine List.Perm.trans ?_ (List.Perm.append_right _ (List.Perm.append_right _ this))
        simp only [List.cons_append]
        exact List.perm_append_singleton _ _
      · simp only [account, Function.update_of_ne hne, hother i' hne]
        exact List.Perm.refl _
    constructor
    · exact hdst
    · intro i' hi'; exact ((hacc i' hi').map _).nodup_iff.2 (h.nodup i' hi')
    · intro i' hi' x; rw [(hacc i' hi').mem_iff]; exact h.mem i' hi' x
    · intro i' hi' hs'
      by_cases hne : i' = m.dst
      · subst hne; simp [hs] at hs'
      · obtain ⟨a', b', c', d', e'⟩ := h.idle i' hi' hs'
        simp only [Function.update_of_ne hne]
        refine ⟨a', b', c', d', ?_⟩
        split
        · exact e'
        · rw [Function.update_of_ne hne]; exact e'
    · intro i' hi' hs'
      by_cases hne : i' = m.dst
      · subst hne
        simp only [Function.update_self, List.length_append, List.length_singleton]
        refine ⟨a, by rw [b], c, d, ?_⟩
        rw [if_neg (by omega)] at e
        split <;> split
        · omega
        · exact e
        · simp [e]
        · omega
      · obtain ⟨a', b', c', d', e'⟩ := h.active i' hi' hs'
        simp only [Function.update_of_ne hne]
        refine ⟨a', b', c', d', ?_⟩
        split
        · exact e'
        · rw [Function.update_of_ne hne]; exact e'
  · have hs : s.started m.dst = false := by simpa using hs
    obtain ⟨a, b, c, d, e⟩ := h.idle _ hi hs
    have hrun : (s.proto m.dst).isRunning = false := by simp [Proto.isRunning, a]
    have hst : handleStep s m (pre ++ post) =
        { s with
          proto := Function.update s.proto m.dst
            { s.proto m.dst with buffer := (s.proto m.dst).buffer ++ [m] }
          pool := pre ++ post } := by
      simp [handleStep, Proto.received, hrun]
    rw [hst]
    have hacc : ∀ i' < n, (account { s with
          proto := Function.update s.proto m.dst
            { s.proto m.dst with buffer := (s.proto m.dst).buffer ++ [m] }
          pool := pre ++ post } i').Perm (account s i') := by
      intro i' hi'
      by_cases hne : i' = m.dst
      · subst hne
        simp only [account, Function.update_self]
        refine List.Perm.append_right _ ?_
        refine List.Perm.trans ?_ (List.Perm.append_right _ hself.symm)
        rw [← List.append_assoc]
        simp only [List.cons_append]
        exact List.perm_append_singleton _ _
      · simp only [account, Function.update_of_ne hne, hother i' hne]
        exact List.Perm.refl _
    constructor
    · exact hdst
    · intro i' hi'; exact ((hacc i' hi').map _).nodup_iff.2 (h.nodup i' hi')
    · intro i' hi' x; rw [(hacc i' hi').mem_iff]; exact h.mem i' hi' x
    · intro i' hi' hs'
      by_cases hne : i' = m.dst
      · subst hne; simpa using ⟨a, b, c, d, e⟩
      · simpa [Function.update_of_ne hne] using h.idle i' hi' hs'
    · intro i' hi' hs'
      by_cases hne : i' = m.dst
      · subst hne; simp [hs] at hs'
      · simpa [Function.update_of_ne hne] using h.active i' hi' hs'

theorem inv_reachable {incl : Bool} {n : Nat} {s : DirectNet P} (h : Reachable incl n s) : Inv incl n s := by
  induction h with
  | init pay => exact inv_init incl n pay
  | step _ hstep ih =>
    cases hstep with
    | start i f hi hs => exact inv_start ih f hi hs
    | handle pre post m hp => exact inv_handle ih hp

/-! ## The property theorems -/

/-- C17a (safety, every schedule): a node announces completion at most once, and when it has done so it
had entered the stage and has processed exactly one message of each of its peers, namely the one that
peer sent to it. -/
theorem C17_done_complete {incl : Bool} {n : Nat} {s : DirectNet P} (h : Reachable incl n s) {i : Nat} (hi : i < n) :
    s.done i ≤ 1 ∧
    (s.done i = 1 → s.started i = true ∧ (∀ j < n, (incl = true ∨ j ≠ i) → s.started j = true) ∧
      (s.processed i).Perm ((peers incl n i).map (fun j => DMsg.mk j i (s.pay j i)))) := by
  have hI := inv_reachable h
  by_cases hs : s.started i = true
  · obtain ⟨a, b, c, d, e⟩ := hI.active i hi hs
    refine ⟨by rw [e]; split <;> omega, fun hd => ⟨hs, ?_⟩⟩
    have hlen : (s.processed i).length = total incl n := by
      by_contra hcon; rw [if_neg hcon] at e; omega
    have hall := account_length hI hi
    have hnil : s.pool.filter (fun m => decide (m.dst = i)) = [] := by
      rw [← List.length_eq_zero_iff]
      simp only [account, List.length_append] at hall; omega
    have hacc : account s i = s.processed i := by simp [account, hnil, d]
    have hnd : ((s.processed i).map DMsg.src).Nodup := by have := hI.nodup i hi; rwa [hacc] at this
    have hsubset : (s.processed i).map DMsg.src ⊆ peers incl n i := by
      intro a ha
      obtain ⟨m, hm, rfl⟩ := List.mem_map.1 ha
      have := (hI.mem i hi m).1 (by rw [hacc]; exact hm)
      exact mem_peers.2 ⟨this.2.1, this.2.2.1⟩
    have hperm : ((s.processed i).map DMsg.src).Perm (peers incl n i) :=
      (hnd.subperm hsubset).perm_of_length_le (by rw [List.length_map, hlen, length_peers hi])
    have hst : ∀ j < n, (incl = true ∨ j ≠ i) → s.started j = true := by
      intro j hj hne
      have : j ∈ (s.processed i).map DMsg.src := hperm.mem_iff.2 (mem_peers.2 ⟨hj, hne⟩)
      obtain ⟨m, hm, rfl⟩ := List.mem_map.1 this
      exact ((hI.mem i hi m).1 (by rw [hacc]; exact hm)).2.2.2.1
    refine ⟨hst, ?_⟩
    refine (List.perm_ext_iff_of_nodup hnd.of_map ?_).2 ?_
    · refine List.Nodup.map ?_ nodup_peers
      intro x y hxy; exact congrArg DMsg.src hxy
    · intro m
      have := hI.mem i hi m
      rw [hacc] at this
      rw [this, List.mem_map]
      constructor
      · rintro ⟨a, b, c, d, e⟩
        exact ⟨m.src, mem_peers.2 ⟨b, c⟩, by cases m; simp_all⟩
      · rintro ⟨j, hj, rfl⟩
        obtain ⟨hj1, hj2⟩ := mem_peers.1 hj
        exact ⟨rfl, hj1, hj2, hst j hj1 hj2, rfl⟩
  · have hs : s.started i = false := by simpa using hs
    obtain ⟨a, b, c, d, e⟩ := hI.idle i hi hs
    exact ⟨by omega, fun h => by omega⟩

/-- C17b (no message is lost, every schedule): at every moment every message that was sent to a node is
exactly once in flight, in the buffer or processed. -/
theorem C17_no_loss {incl : Bool} {n : Nat} {s : DirectNet P} (h : Reachable incl n s) {i j : Nat} (hi : i < n)
    (hj : j < n) (hne : incl = true ∨ j ≠ i) (hs : s.started j = true) :
    DMsg.mk j i (s.pay j i) ∈ account s i ∧ ((account s i).map DMsg.src).Nodup := by
  have hI := inv_reachable h
  exact ⟨(hI.mem i hi _).2 ⟨rfl, hj, hne, hs, rfl⟩, hI.nodup i hi⟩

/-- C17c (progress): when all nodes entered the stage and no message is in flight, every node has
announced completion. -/
theorem C17_quiescent_done {incl : Bool} {n : Nat} {s : DirectNet P} (h : Reachable incl n s)
    (hall : ∀ i < n, s.started i = true) (hq : s.pool = []) {i : Nat} (hi : i < n) :
    s.done i = 1 := by
  have hI := inv_reachable h
  obtain ⟨a, b, c, d, e⟩ := hI.active i hi (hall i hi)
  have hacc : account s i = s.processed i := by simp [account, hq, d]
  have hsub : (peers incl n i).Subperm ((s.processed i).map DMsg.src) := by
    refine List.Nodup.subperm nodup_peers ?_
    intro j hj
    obtain ⟨hj1, hj2⟩ := mem_peers.1 hj
    have := (C17_no_loss h hi hj1 hj2 (hall j hj1)).1
    rw [hacc] at this
    exact List.mem_map.2 ⟨_, this, rfl⟩
  have h1 := hsub.length_le
  rw [List.length_map, length_peers hi] at h1
  have h2 := account_length hI hi
  rw [hacc] at h2
  rw [e, if_pos (by omega)]

/-- Work left: handler runs that can still happen, weighted. -/
def remaining (n : Nat) (s : DirectNet P) : Nat :=
  ((List.range n).map (fun i => (if s.started i then 0 else 3 * n + 1) +
    (s.proto i).buffer.length)).sum + 2 * s.pool.length

theorem sum_range_update (g h : Nat → Nat) (i : Nat) (hgh : ∀ j, j ≠ i → g j = h j) : ∀ n, i < n →
    ((List.range n).map g).sum + h i = ((List.range n).map h).sum + g i := by
  intro n
  induction n with
  | zero => intro hi; omega
  | succ n ih =>
    intro hi
    simp only [List.range_succ, List.map_append, List.sum_append, List.map_cons, List.map_nil,
      List.sum_cons, List.sum_nil]
    by_cases hn : i = n
    · subst hn
      have : (List.range i).map g = (List.range i).map h := by
        apply List.map_congr_left
        intro a ha; exact hgh a (by have := List.mem_range.1 ha; omega)
      rw [this]; omega
    · have := ih (by omega)
      have := hgh n (fun h => hn h.symm)
      omega

/-- C17d (termination): every step of the exchange strictly decreases the work left, so every schedule is
finite; together with C17c every maximal schedule ends with all nodes done. -/
theorem C17_terminates {incl : Bool} {n : Nat} {s t : DirectNet P} (h : Reachable incl n s) (hst : Step incl n s t) :
    remaining n t < remaining n s := by
  have hI := inv_reachable h
  cases hst with
  | start i f hi hs =>
    have hb : (s.proto i).buffer.length ≤ total incl n := by
      have := account_length hI hi
      simp only [account, List.length_append] at this; omega
    have key := sum_range_update
      (fun j => (if (startStep incl n s i f).started j then 0 else 3 * n + 1) +
        ((startStep incl n s i f).proto j).buffer.length)
      (fun j => (if s.started j then 0 else 3 * n + 1) + (s.proto j).buffer.length) i
      (by intro j hj; simp [startStep, Function.update_of_ne hj]) n hi
    have hp : (startStep incl n s i f).pool.length = s.pool.length + (s.proto i).buffer.length + (total incl n) := by
      simp [startStep, Proto.resolveBuffer, Proto.start, length_peers hi]; omega
    have hsi : (startStep incl n s i f).started i = true := by simp [startStep]
    have hbi : ((startStep incl n s i f).proto i).buffer = [] := by
      simp [startStep, Proto.resolveBuffer]
    simp only [hsi, hbi, hs, if_true, List.length_nil] at key
    have ht : total incl n ≤ n := by unfold total; split <;> omega
    unfold remaining
    rw [hp]
    simp at key
    omega
  | handle pre post m hp =>
    have hi : m.dst < n := hI.dst m (by simp [hp])
    have key := sum_range_update
      (fun j => (if (handleStep s m (pre ++ post)).started j then 0 else 3 * n + 1) +
        ((handleStep s m (pre ++ post)).proto j).buffer.length)
      (fun j => (if s.started j then 0 else 3 * n + 1) + (s.proto j).buffer.length) m.dst
      (by
        intro j hj
        cases hr : (s.proto m.dst).isRunning <;>
          simp [handleStep, Proto.received, hr, Function.update_of_ne hj]) n hi
    have hpl : (handleStep s m (pre ++ post)).pool.length + 1 = s.pool.length := by
      cases hr : (s.proto m.dst).isRunning <;> simp [handleStep, Proto.received, hr, hp] <;> omega
    have hsi : (handleStep s m (pre ++ post)).started = s.started := by
      cases hr : (s.proto m.dst).isRunning <;> simp [handleStep, Proto.received, hr]
    have hbi : ((handleStep s m (pre ++ post)).proto m.dst).buffer.length
        ≤ (s.proto m.dst).buffer.length + 1 := by
      cases hr : (s.proto m.dst).isRunning <;> simp [handleStep, Proto.received, hr]
    rw [hsi] at key
    unfold remaining
    rw [hsi]
    omega

/-- C17e (no deadlock): while some node is not done, some step is possible. -/
theorem C17_no_deadlock {incl : Bool} {n : Nat} {s : DirectNet P} (h : Reachable incl n s) {i : Nat} (hi : i < n)
    (hd : s.done i ≠ 1) : ∃ t, Step incl n s t := by
  by_cases hall : ∀ j < n, s.started j = true
  · cases hq : s.pool with
    | nil => exact absurd (C17_quiescent_done h hall hq hi) hd
    | cons m rest => exact ⟨_, Step.handle s [] rest m (by simpa using hq)⟩
  · push Not at hall
    obtain ⟨j, hj, hs⟩ := hall
    exact ⟨_, Step.start s j (s.pay j) hj (by simpa using hs)⟩

/-! ### Exchanges with given contents -/

theorem StepWith.toStep {incl : Bool} {n : Nat} {f : Nat → Nat → P} {s t : DirectNet P}
    (h : StepWith incl n f s t) : Step incl n s t := by
  cases h with
  | start i hi hs => exact .start s i _ hi hs
  | handle pre post m hp => exact .handle s pre post m hp

theorem ReachableWith.toReachable {incl : Bool} {n : Nat} {f : Nat → Nat → P} {s : DirectNet P}
    (h : ReachableWith incl n f s) : Reachable incl n s := by
  induction h with
  | init => exact .init _
  | step _ hs ih => exact .step ih hs.toStep

theorem ReachableWith.pay_eq {incl : Bool} {n : Nat} {f : Nat → Nat → P} {s : DirectNet P}
    (h : ReachableWith incl n f s) : s.pay = f := by
  induction h with
  | init => rfl
  | step _ hs ih =>
    cases hs with
    | start i hi hs =>
      simp only [startStep, ih]
      exact Function.update_eq_self i f
    | handle pre post m hp =>
      rw [← ih]
      unfold handleStep
      dsimp only
      split <;> rfl

/-- A node that is done has processed exactly what the other nodes wanted to send to it. -/
theorem ReachableWith.done_complete {incl : Bool} {n : Nat} {f : Nat → Nat → P} {s : DirectNet P}
    (h : ReachableWith incl n f s) {i : Nat} (hi : i < n) (hd : s.done i = 1) :
    (s.processed i).Perm ((peers incl n i).map (fun j => DMsg.mk j i (f j i))) := by
  have := ((C17_done_complete h.toReachable hi).2 hd).2.2
  rwa [h.pay_eq] at this

/-- The own index and the peers are all indices. -/
theorem range_perm {n i : Nat} (hi : i < n) : (i :: peers false n i).Perm (List.range n) := by
  refine (List.perm_ext_iff_of_nodup ?_ List.nodup_range).2 ?_
  · refine List.nodup_cons.2 ⟨?_, nodup_peers⟩
    simp [mem_peers]
  · intro a
    simp only [List.mem_cons, mem_peers, List.mem_range]
    constructor
    · rintro (rfl | h')
      · exact hi
      · exact h'.1
    · intro ha
      by_cases hh : a = i
      · exact Or.inl hh
      · exact Or.inr ⟨ha, Or.inr hh⟩

/-! Concrete instance: three nodes, node 1 gets a message before it has entered the stage. -/
private def s0 : DirectNet String := init (fun _ _ => "")
private def s1 := startStep false 3 s0 0 (fun j => if j = 1 then "0to1" else "0to2")
private def s2 := handleStep s1 ⟨0, 1, "0to1"⟩ [⟨0, 2, "0to2"⟩]
private def s3 := startStep false 3 s2 1 (fun j => if j = 0 then "1to0" else "1to2")
private theorem reach3 : Reachable false 3 s3 := by
  have h1 : Reachable false 3 s1 := .step (.init _) (.start _ 0 _ (by decide) rfl)
  have h2 : Reachable false 3 s2 := .step h1 (.handle _ [] [⟨0, 2, "0to2"⟩] ⟨0, 1, "0to1"⟩ (by decide))
  exact .step h2 (.start _ 1 _ (by decide) (by decide))
/-- the early message was buffered and is in flight again after node 1 started -/
example : (s2.proto 1).buffer = [⟨0, 1, "0to1"⟩] ∧
    s3.pool = [⟨0, 2, "0to2"⟩, ⟨0, 1, "0to1"⟩, ⟨1, 0, "1to0"⟩, ⟨1, 2, "1to2"⟩] := by decide

end DirectNet

/-! ## C19 helper pool -/

namespace HelperProto

/-- Events of a helper pool: a task is sent, an answer is handled. -/
inductive Ev | send | answer
  deriving DecidableEq, Repr

/-- Run the protocol object over a list of events. `none` = crash. -/
def run (p : HelperProto) : List Ev → Option HelperProto
  | [] => some p
  | .send :: es => run p.sent es
  | .answer :: es => p.received.bind (fun q => run q es)

/-- Specification: an event sequence is causal if never more answers than tasks occurred. -/
def Causal (es : List Ev) : Prop :=
  ∀ k, (es.take k).count .answer ≤ (es.take k).count .send

theorem run_spec (p : HelperProto) (es : List Ev)
    (h : ∀ k, (es.take k).count .answer ≤ p.nSent + (es.take k).count .send) :
    ∃ q, run p es = some q ∧ q.nTotal = p.nTotal ∧ q.nReceived = p.nReceived + es.count .answer ∧
      q.nSent + es.count .answer = p.nSent + es.count .send := by
  induction es generalizing p with
  | nil => exact ⟨p, rfl, rfl, by simp, by simp⟩
  | cons e es ih =>
    cases e with
    | send =>
      have := ih p.sent (by
        intro k
        have := h (k + 1)
        simp [sent] at this ⊢; omega)
      obtain ⟨q, h1, h2, h3, h4⟩ := this
      refine ⟨q, h1, h2, ?_, ?_⟩
      · simp [h3, sent]
      · simp [sent] at h4 ⊢; omega
    | answer =>
      have h1 := h 1
      simp at h1
      have hr : p.received = some { p with nSent := p.nSent - 1, nReceived := p.nReceived + 1 } := by
        simp [received, checkedSub, h1]
      have := ih { p with nSent := p.nSent - 1, nReceived := p.nReceived + 1 } (by
        intro k
        have := h (k + 1)
        simp at this ⊢; omega)
      obtain ⟨q, h1', h2, h3, h4⟩ := this
      refine ⟨q, by simp [run, hr, h1'], h2, ?_, ?_⟩
      · simp at h3 ⊢; omega
      · simp at h4 ⊢; omega

/-- C19: in every causal interleaving of tasks and answers the counters never underflow, the number of
tasks in flight is tasks minus answers, and the pool is running iff fewer than `nTotal` answers came. -/
theorem C19_helper_pool (nTotal : Nat) (es : List Ev) (h : Causal es) :
    ∃ q, run { nTotal := nTotal } es = some q ∧
      q.nSent = es.count .send - es.count .answer ∧
      (q.isRunning = true ↔ es.count .answer < nTotal) := by
  obtain ⟨q, h1, h2, h3, h4⟩ := run_spec { nTotal := nTotal } es (by intro k; have := h k; simpa using this)
  refine ⟨q, h1, ?_, ?_⟩
  · simp at h4; omega
  · simp [isRunning, h2, h3]

/-- C19 (boundary): an answer without a task crashes (the hypothesis is needed). -/
theorem C19_underflow : run { nTotal := 1 } [.answer] = none := by decide

example : Causal [.send, .send, .answer, .send, .answer, .answer] := by
  intro k
  match k with
  | 0 | 1 | 2 | 3 | 4 | 5 => decide
  | k + 6 => rw [List.take_of_length_le (by simp)]; decide

end HelperProto
end S2G
