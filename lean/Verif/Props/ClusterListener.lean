import Verif.Model.ClusterListener
import Verif.Props.ClusterNodes
import Mathlib.Data.List.Perm.Subperm
import Mathlib.Data.List.Nodup
import Mathlib.Data.List.Induction

/-!
# C04: cluster formation
-/

namespace S2G
namespace Listener
variable {A : Type} [DecidableEq A]

/-- Specification: the index map of the member `own` for roster `R`: every other member under its position. -/
def indexMap (R : List A) (own : A) : Nat → List (Nat × A)
  | start => ((R.zipIdx start).filter (fun x => x.1 ≠ own)).map (fun x => (x.2, x.1))

theorem sortLoop_spec (own : A) : ∀ (R : List A) (i : Nat) (conn : List A) (m : List (Nat × A)),
    R.Nodup → conn.Nodup → (∀ a ∈ R, a ∈ conn ↔ a ≠ own) → (∀ x ∈ m, x.1 < i) →
    sortLoop i R conn m = m ++ indexMap R own i := by
  intro R
  induction R with
  | nil => intro i conn m _ _ _ _; simp [sortLoop, indexMap]
  | cons a R ih =>
    intro i conn m hR hc hmem hlt
    obtain ⟨haR, hR⟩ := List.nodup_cons.1 hR
    have ha := hmem a (by simp)
    have hfil : m.filter (fun x => decide (x.1 ≠ i)) = m := by
      rw [List.filter_eq_self]; intro x hx; have := hlt x hx; simp; omega
    unfold sortLoop
    by_cases hac : a ∈ conn
    · rw [if_pos hac, ih (i + 1) (conn.erase a) (mapInsert m i a) hR (hc.erase a)]
      · have hao := ha.1 hac
        rw [mapInsert, hfil]
        simp [indexMap, List.zipIdx_cons, hao]
      · intro b hb
        have hba : b ≠ a := fun h => haR (h ▸ hb)
        rw [List.mem_erase_of_ne hba]
        exact hmem b (by simp [hb])
      · intro x hx
        simp only [mapInsert, hfil, List.mem_append, List.mem_singleton] at hx
        rcases hx with hx | rfl
        · have := hlt x hx; omega
        · simp
    · rw [if_neg hac, ih (i + 1) conn m hR hc (fun b hb => hmem b (by simp [hb]))
        (fun x hx => by have := hlt x hx; omega)]
      have hao : a = own := by by_contra h; exact hac (ha.2 h)
      simp [indexMap, List.zipIdx_cons, hao]

/-- Events that a sub node sees: one join event per other member, and the roster. -/
def Allowed (R : List A) (own : A) (e : ListenerEv A) : Prop :=
  (∃ a ∈ R, a ≠ own ∧ e = .newMember a) ∨ e = .sortedMembers R

/-- All of these events have been seen. -/
def Complete (R : List A) (own : A) (es : List (ListenerEv A)) : Prop :=
  (∀ a ∈ R, a ≠ own → ListenerEv.newMember a ∈ es) ∧ ListenerEv.sortedMembers R ∈ es

theorem conn_full {R : List A} {own : A} {n : Nat} (hR : R.Nodup) (ho : own ∈ R) (hn : R.length = n)
    {conn : List A} (hc : conn.Nodup) (hsub : ∀ a ∈ conn, a ∈ R ∧ a ≠ own) :
    conn.length = n - 1 ↔ ∀ a ∈ R, a ≠ own → a ∈ conn := by
  have hl : (R.erase own).length = n - 1 := by rw [List.length_erase_of_mem ho, hn]
  have hs : conn.Subperm (R.erase own) := by
    refine hc.subperm ?_
    intro a ha
    have := hsub a ha
    exact (List.mem_erase_of_ne this.2).2 this.1
  constructor
  · intro h a ha hao
    have := hs.perm_of_length_le (by omega)
    exact this.mem_iff.2 ((List.mem_erase_of_ne hao).2 ha)
  · intro h
    have h2 : (R.erase own).Subperm conn := by
      refine (hR.erase own).subperm ?_
      intro a ha
      have hao : a ≠ own := by
        rintro rfl; exact (hR.not_mem_erase) ha
      exact h a ((List.mem_erase_of_ne hao).1 ha) hao
    have := h2.length_le
    have := hs.length_le
    omega

theorem run_concat (n : Nat) (isMain : Bool) (own : A) (ord : List A → List A)
    (es : List (ListenerEv A)) (e : ListenerEv A) :
    run n isMain own ord (es ++ [e]) =
      ((handle n isMain own ord (run n isMain own ord es).1 e).1,
        (run n isMain own ord es).2 ++ (handle n isMain own ord (run n isMain own ord es).1 e).2) := by
  simp [run, List.foldl_append]

/-- State of a sub node after any duplicate-free sequence of allowed events. -/
theorem sub_inv {R : List A} {own : A} {n : Nat} (hR : R.Nodup) (ho : own ∈ R) (hn : R.length = n)
    (ord : List A → List A) (es : List (ListenerEv A)) (hnd : es.Nodup)
    (hal : ∀ e ∈ es, Allowed R own e) :
    let st := (run n false own ord es).1
    st.connected.Nodup ∧ (∀ a, a ∈ st.connected ↔ ListenerEv.newMember a ∈ es) ∧
    (Complete R own es → st.started = [⟨indexMap R own 0⟩]) ∧
    (¬ Complete R own es → st.started = [] ∧ st.sortedNodes = [] ∧
      st.addrBuffer = if ListenerEv.sortedMembers R ∈ es then R else []) := by
  have hRne : R ≠ [] := List.ne_nil_of_mem ho
  induction es using List.reverseRecOn with
  | nil => simp [run, Complete]
  | append_singleton es e ih =>
    have hnd' : es.Nodup := (List.nodup_append.1 hnd).1
    have hnew : e ∉ es := by
      intro h; have := (List.nodup_append.1 hnd).2.2 e h e (by simp); exact this rfl
    obtain ⟨h1, h2, h3, h4⟩ := ih hnd' (fun x hx => hal x (by simp [hx]))
    rw [run_concat]
    generalize (run n false own ord es).1 = st at h1 h2 h3 h4
    have hconn : ∀ a ∈ st.connected, a ∈ R ∧ a ≠ own := by
      intro a ha
      rcases hal _ (List.mem_append_left _ ((h2 a).1 ha)) with ⟨b, hb, hbo, hab⟩ | h
      · cases hab; exact ⟨hb, hbo⟩
      · cases h
    rcases hal e (by simp) with ⟨a, ha, hao, rfl⟩ | rfl
    · -- a member joins
      have hanc : a ∉ st.connected := fun h => hnew ((h2 a).1 h)
      have hins : setInsert st.connected a = st.connected ++ [a] := by simp [setInsert, hanc]
      have hnot : ¬ Complete R own es := fun h => hnew (h.1 a ha hao)
      obtain ⟨i1, i2, i3⟩ := h4 hnot
      have hnd2 : (st.connected ++ [a]).Nodup := by
        rw [List.nodup_append]; refine ⟨h1, by simp, ?_⟩
        intro x hx y hy; simp at hy; subst hy; rintro rfl; exact hanc hx
      have hmem2 : ∀ x, x ∈ st.connected ++ [a] ↔
          ListenerEv.newMember x ∈ es ++ [ListenerEv.newMember a] := by
        intro x; simp [h2 x]
      have hsub2 : ∀ x ∈ st.connected ++ [a], x ∈ R ∧ x ≠ own := by
        intro x hx; simp at hx; rcases hx with hx | rfl
        · exact hconn x hx
        · exact ⟨ha, hao⟩
      have hfull := conn_full hR ho hn hnd2 hsub2
      have hcomp : Complete R own (es ++ [ListenerEv.newMember a]) ↔
          ((st.connected ++ [a]).length = n - 1 ∧ ListenerEv.sortedMembers R ∈ es) := by
        rw [hfull]
        simp only [Complete, ← hmem2, List.mem_append, List.mem_singleton]
        simp
      simp only [handle, hins]
      by_cases hf : (st.connected ++ [a]).length = n - 1
      · by_cases hsm : ListenerEv.sortedMembers R ∈ es
        · have hbuf : st.addrBuffer.isEmpty = false := by
            rw [i3, if_pos hsm]; simpa using hRne
          simp only [hf, if_true, hbuf, Bool.false_eq_true, if_false]
          refine ⟨hnd2, hmem2, fun _ => ?_, fun h => absurd (hcomp.2 ⟨hf, hsm⟩) h⟩
          have hsort := sortLoop_spec own R 0 (st.connected ++ [a]) [] hR hnd2
            (fun b hb => ⟨fun h => (hsub2 b h).2, fun h => hfull.1 hf b hb h⟩) (by simp)
          simp only [startTraining, sortMembers, i1, i2, i3, if_pos hsm, hsort, List.nil_append]
        · have hbuf : st.addrBuffer.isEmpty = true := by rw [i3, if_neg hsm]; rfl
          simp only [hf, if_true, hbuf, Bool.false_eq_true, if_false]
          refine ⟨hnd2, hmem2, fun h => absurd (hcomp.1 h).2 hsm, fun _ => ⟨i1, i2, ?_⟩⟩
          rw [i3]; simp
      · simp only [hf, if_false]
        refine ⟨hnd2, hmem2, fun h => absurd (hcomp.1 h).1 hf, fun _ => ⟨i1, i2, ?_⟩⟩
        rw [i3]; simp
    · -- the roster arrives
      have hnot : ¬ Complete R own es := fun h => hnew h.2
      obtain ⟨i1, i2, i3⟩ := h4 hnot
      have hfull := conn_full hR ho hn h1 hconn
      have hmem2 : ∀ x, x ∈ st.connected ↔
          ListenerEv.newMember x ∈ es ++ [ListenerEv.sortedMembers R] := by
        intro x; simp [h2 x]
      have hcomp : Complete R own (es ++ [ListenerEv.sortedMembers R]) ↔
          st.connected.length = n - 1 := by
        rw [hfull]
        simp only [Complete, ← hmem2]
        simp
      simp only [handle]
      by_cases hf : st.connected.length = n - 1
      · simp only [hf, if_true]
        refine ⟨h1, hmem2, fun _ => ?_, fun h => absurd (hcomp.2 hf) h⟩
        have hsort := sortLoop_spec own R 0 st.connected [] hR h1
            (fun b hb => ⟨fun h => (hconn b h).2, fun h => hfull.1 hf b hb h⟩) (by simp)
        simp only [startTraining, sortMembers, i1, i2, hsort, List.nil_append]
      · simp only [hf, if_false]
        refine ⟨h1, hmem2, fun h => absurd (hcomp.1 h) hf, fun _ => ⟨i1, i2, by simp⟩⟩

/-- State of the main node after any duplicate-free sequence of join events. -/
theorem main_inv {U : List A} {own : A} {n : Nat} (hU : (own :: U).Nodup) (hn : U.length = n - 1)
    (hn2 : 2 ≤ n) (ord : List A → List A) (hord : ∀ l, (ord l).Perm l)
    (es : List A) (hnd : es.Nodup) (hal : ∀ a ∈ es, a ∈ U) :
    let r := run n true own ord (es.map .newMember)
    r.1.connected = es ∧ r.1.addrBuffer = [] ∧
    (es.length = n - 1 → r.1.started = [⟨indexMap (own :: ord es) own 0⟩] ∧
      r.2 = es.map (fun _ => own :: ord es)) ∧
    (es.length ≠ n - 1 → r.1.started = [] ∧ r.1.sortedNodes = [] ∧ r.2 = []) := by
  induction es using List.reverseRecOn with
  | nil => refine ⟨rfl, rfl, fun h => ?_, fun _ => ⟨rfl, rfl, rfl⟩⟩; simp at h; omega
  | append_singleton es a ih =>
    have hnd' : es.Nodup := (List.nodup_append.1 hnd).1
    have hnew : a ∉ es := by
      intro h; have := (List.nodup_append.1 hnd).2.2 a h a (by simp); exact this rfl
    obtain ⟨h1, h2, h3, h4⟩ := ih hnd' (fun x hx => hal x (by simp [hx]))
    have hlen : (es ++ [a]).length ≤ U.length := (hnd.subperm hal).length_le
    have hne : es.length ≠ n - 1 := by simp at hlen; omega
    obtain ⟨i1, i2, i3⟩ := h4 hne
    simp only [List.map_append, List.map_cons, List.map_nil]
    rw [run_concat]
    generalize run n true own ord (es.map .newMember) = r at h1 h2 h3 h4 i1 i2 i3
    have hins : setInsert r.1.connected a = es ++ [a] := by simp [setInsert, h1, hnew]
    simp only [handle, hins]
    by_cases hf : (es ++ [a]).length = n - 1
    · simp only [hf, if_true]
      refine ⟨rfl, h2, fun _ => ⟨?_, by simp [i3]⟩, fun h => absurd rfl h⟩
      have hp := hord (es ++ [a])
      have hoU : own ∉ U := (List.nodup_cons.1 hU).1
      have hoe : own ∉ es ++ [a] := fun h => hoU (hal _ h)
      have hsort := sortLoop_spec own (own :: ord (es ++ [a])) 0 (es ++ [a]) []
        (List.nodup_cons.2 ⟨fun h => hoe (hp.mem_iff.1 h), hp.nodup_iff.2 hnd⟩) hnd
        (by
          intro b hb
          rcases List.mem_cons.1 hb with rfl | hb
          · simp only [ne_eq, not_true_eq_false, iff_false]; exact hoe
          · have := hp.mem_iff.1 hb
            exact ⟨fun _ => by rintro rfl; exact hoe this, fun _ => this⟩) (by simp)
      simp only [startTraining, sortMembers, i1, i2, hsort, List.nil_append]
    · simp only [hf, if_false]
      exact ⟨trivial, h2, fun h => absurd h id, fun _ => ⟨i1, i2, by simp [i3]⟩⟩

/-! ## The property theorems -/

/-- C04a (sub node): for every interleaving of the join events of all other members with the arrival of the roster
`R`, training is started exactly once, with every other member under its position in the roster. -/
theorem C04_sub_starts_once {R : List A} {own : A} {n : Nat} (hR : R.Nodup) (ho : own ∈ R)
    (hn : R.length = n) (ord : List A → List A) {es : List (ListenerEv A)}
    (hes : es.Perm (((R.erase own).map .newMember) ++ [.sortedMembers R])) :
    (run n false own ord es).1.started = [⟨indexMap R own 0⟩] := by
  have hnd : es.Nodup := by
    rw [hes.nodup_iff, List.nodup_append]
    refine ⟨(hR.erase own).map (fun x y h => by cases h; rfl), by simp, ?_⟩
    intro x hx y hy
    simp at hy; subst hy
    obtain ⟨a, _, rfl⟩ := List.mem_map.1 hx
    simp
  have hmem : ∀ a, ListenerEv.newMember a ∈ es ↔ a ∈ R.erase own := by
    intro a; rw [hes.mem_iff]; simp
  refine (sub_inv hR ho hn ord es hnd ?_).2.2.1 ⟨?_, ?_⟩
  · intro e he
    rw [hes.mem_iff, List.mem_append] at he
    rcases he with he | he
    · obtain ⟨a, ha, rfl⟩ := List.mem_map.1 he
      refine Or.inl ⟨a, List.mem_of_mem_erase ha, ?_, rfl⟩
      rintro rfl; exact hR.not_mem_erase ha
    · exact Or.inr (by simpa using he)
  · intro a ha hao
    rw [hmem]; exact (List.mem_erase_of_ne hao).2 ha
  · rw [hes.mem_iff]; simp

/-- C04b (sub node): training is not started before the last of these events. -/
theorem C04_sub_not_early {R : List A} {own : A} {n : Nat} (hR : R.Nodup) (ho : own ∈ R)
    (hn : R.length = n) (ord : List A → List A) {es es' : List (ListenerEv A)}
    (hes : es.Perm (((R.erase own).map .newMember) ++ [.sortedMembers R]))
    (hpre : es' <+: es) (hlt : es'.length < es.length) :
    (run n false own ord es').1.started = [] := by
  have hnd : es.Nodup := by
    rw [hes.nodup_iff, List.nodup_append]
    refine ⟨(hR.erase own).map (fun x y h => by cases h; rfl), by simp, ?_⟩
    intro x hx y hy
    simp at hy; subst hy
    obtain ⟨a, _, rfl⟩ := List.mem_map.1 hx
    simp
  have hsub : ∀ e ∈ es', e ∈ es := fun e he => hpre.subset he
  have hnd' : es'.Nodup := hnd.sublist hpre.sublist
  refine ((sub_inv hR ho hn ord es' hnd' ?_).2.2.2 ?_).1
  · intro e he
    have he := hsub e he
    rw [hes.mem_iff, List.mem_append] at he
    rcases he with he | he
    · obtain ⟨a, ha, rfl⟩ := List.mem_map.1 he
      refine Or.inl ⟨a, List.mem_of_mem_erase ha, ?_, rfl⟩
      rintro rfl; exact hR.not_mem_erase ha
    · exact Or.inr (by simpa using he)
  · rintro ⟨h1, h2⟩
    have : es.Subperm es' := by
      refine hnd.subperm ?_
      intro e he
      rw [hes.mem_iff, List.mem_append] at he
      rcases he with he | he
      · obtain ⟨a, ha, rfl⟩ := List.mem_map.1 he
        refine h1 a (List.mem_of_mem_erase ha) ?_
        rintro rfl; exact hR.not_mem_erase ha
      · simp at he; subst he; exact h2
    have := this.length_le
    omega

/-- C04c (main node): for every order in which the other members join (and every iteration order of the hash set),
the main node starts training exactly once, and sends to every member the same roster `own :: …` which lists every
member exactly once; its own index map follows this roster. -/
theorem C04_main_starts_once {U : List A} {own : A} {n : Nat} (hU : (own :: U).Nodup)
    (hn : U.length = n - 1) (hn2 : 2 ≤ n) (ord : List A → List A) (hord : ∀ l, (ord l).Perm l)
    {es : List A} (hes : es.Perm U) :
    ∃ R : List A, R.Perm (own :: U) ∧ R.head? = some own ∧
      (run n true own ord (es.map .newMember)).1.started = [⟨indexMap R own 0⟩] ∧
      (run n true own ord (es.map .newMember)).2 = es.map (fun _ => R) := by
  have h := (main_inv hU hn hn2 ord hord es (hes.nodup_iff.2 (List.nodup_cons.1 hU).2)
    (fun a ha => hes.mem_iff.1 ha)).2.2.1 (by rw [hes.length_eq, hn])
  exact ⟨own :: ord es, ((hord es).trans hes).cons own, rfl, h.1, h.2⟩

/-- C04d: an index map built from the roster makes the node a consistent member (hypothesis of all C03 theorems),
with its own roster position as own index. -/
theorem C04_index_consistent {R : List A} (hR : R.Nodup) {k : Nat} (hk : k < R.length) :
    ClusterNodes.IsMember (⟨indexMap R R[k] 0⟩ : ClusterNodes A) R.length k ∧
    ∀ j, (hj : j < R.length) → j ≠ k →
      (j, R[j]) ∈ (⟨indexMap R R[k] 0⟩ : ClusterNodes A).nodes := by
  have hmem : ∀ j a, (j, a) ∈ indexMap R R[k] 0 ↔ ∃ h : j < R.length, R[j] = a ∧ j ≠ k := by
    intro j a
    simp only [indexMap, List.mem_map, List.mem_filter, Prod.mk.injEq, Prod.exists]
    constructor
    · rintro ⟨b, i, ⟨h1, h2⟩, rfl, rfl⟩
      rw [List.mem_zipIdx_iff_getElem?] at h1
      obtain ⟨hi, hb⟩ := List.getElem?_eq_some_iff.1 h1
      refine ⟨hi, hb, ?_⟩
      rintro rfl; simp at h2 hb; exact h2 hb.symm
    · rintro ⟨h, rfl, hne⟩
      refine ⟨R[j], j, ⟨?_, ?_⟩, rfl, rfl⟩
      · rw [List.mem_zipIdx_iff_getElem?]; simp [h]
      · simp only [decide_eq_true_eq]; intro hc; exact hne ((hR.getElem_inj_iff).1 hc)
  constructor
  · constructor
    · have : (⟨indexMap R R[k] 0⟩ : ClusterNodes A).keys =
          ((R.zipIdx 0).filter (fun x => decide (x.1 ≠ R[k]))).map Prod.snd := by
        simp [ClusterNodes.keys, indexMap, Function.comp_def]
      rw [this]
      have hs : (((R.zipIdx 0).filter (fun x => decide (x.1 ≠ R[k]))).map Prod.snd).Sublist
          ((R.zipIdx 0).map Prod.snd) := (List.filter_sublist).map _
      refine hs.nodup ?_
      rw [List.zipIdx_map_snd]
      exact List.nodup_range' (step := 1) (by omega)
    · exact hk
    · intro j
      simp only [ClusterNodes.keys, List.mem_map, Prod.exists]
      constructor
      · rintro ⟨i, a, h, rfl⟩
        obtain ⟨h1, _, h2⟩ := (hmem i a).1 h
        exact ⟨h1, h2⟩
      · rintro ⟨h1, h2⟩
        exact ⟨j, R[j], (hmem j _).2 ⟨h1, rfl, h2⟩, rfl⟩
  · intro j hj hne
    exact (hmem j _).2 ⟨hj, rfl, hne⟩

/-- C04 (boundary): a repeated join event would start training twice, so the assumption of distinct join events is
needed. -/
theorem C04_rejoin_starts_twice :
    ((run 2 true "main" id [.newMember "sub", .newMember "sub"]).1.started).length = 2 := by decide

/-! Concrete instance: member "c" of the roster a,b,c,d; the roster arrives between join events. -/
example : ((run 4 false "c" id
    [.newMember "d", .sortedMembers ["a", "b", "c", "d"], .newMember "a", .newMember "b"]).1.started.map
      (·.nodes)) = [[(0, "a"), (1, "b"), (3, "d")]] := by decide
example : [ListenerEv.newMember "d", .sortedMembers ["a", "b", "c", "d"], .newMember "a",
    .newMember "b"].Perm
    (((["a", "b", "c", "d"].erase "c").map ListenerEv.newMember) ++
      [.sortedMembers ["a", "b", "c", "d"]]) := by decide

end Listener
end S2G
