import Mathlib.Data.List.Forall2

/-!
# General lemmas about lists and options
-/

namespace S2G

theorem mapM_eq_some {α β : Type} (f : α → Option β) : ∀ (l : List α) (l' : List β),
    l.mapM f = some l' ↔ List.Forall₂ (fun a b => f a = some b) l l' := by
  intro l
  induction l with
  | nil => intro l'; cases l' <;> simp [List.mapM_nil]
  | cons a l ih =>
    intro l'
    rw [List.mapM_cons]
    cases ha : f a with
    | none => cases l' <;> simp [ha]
    | some b =>
      cases hl : l.mapM f with
      | none =>
        cases l' with
        | nil => simp
        | cons b' l' =>
          simp only [Option.bind_eq_bind, Option.bind_some, Option.bind_none, reduceCtorEq, false_iff,
            List.forall₂_cons, not_and]
          intro _ h
          rw [← ih, hl] at h; cases h
      | some bs =>
        cases l' with
        | nil => simp
        | cons b' l' =>
          simp only [Option.bind_eq_bind, Option.bind_some, List.forall₂_cons, ← ih, hl, ha]
          simp

theorem perm_pair {α : Type} {l : List α} {x y : α} (h : l.Perm [x, y]) : l = [x, y] ∨ l = [y, x] := by
  match l, h.length_eq with
  | [a, b], _ =>
    by_cases ha : a = x
    · subst ha
      have := (List.perm_cons a).1 h
      rw [List.perm_singleton] at this
      exact Or.inl (by simp_all)
    · have hmem : a ∈ [x, y] := h.mem_iff.1 (by simp)
      have hay : a = y := by simpa [ha] using hmem
      subst hay
      have h2 : [a, b].Perm [a, x] := h.trans (List.Perm.swap _ _ _)
      have := (List.perm_cons a).1 h2
      rw [List.perm_singleton] at this
      exact Or.inr (by simp_all)

end S2G
