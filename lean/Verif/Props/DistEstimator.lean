import Verif.Model.DistEstimator
import Verif.Props.Estimator
import Verif.Props.FileRun

/-!
# The distributed Python estimator (C95)
-/

namespace S2G
namespace DistEstimator

variable {A : Type}

/-! ### What the arguments mean -/

/-- The names which a user may give. -/
def allowed : List String :=
  ["n_cluster_nodes", "mainhost", "output_path", "column_start_idx", "column_end_idx", "pattern_length", "latent", "rate", "query_length", "n_threads",
    "clustering", "self_correction", "local_host"]

/-- The argument with this name, or `d` if it is not given. -/
def arg (kw : Kwargs) (name : String) (d : PyVal) : PyVal := (kw.lookup name).getD d

/-- A value is the number `z`: an integer or a truth value. -/
def Num (v : PyVal) (z : Int) : Prop := v = .int z ∨ (v = .bool true ∧ z = 1) ∨ (v = .bool false ∧ z = 0)

/-- Values which count as not given. -/
def Empty (v : PyVal) : Prop := v = .none ∨ v = .int 0 ∨ v = .bool false ∨ v = .str ""

instance (v : PyVal) : Decidable (Empty v) := by
  unfold Empty
  infer_instance

/-- The run which a user means with these keywords. -/
structure Meant (parse : String → Option A) (role : DistRole) (cpus : Nat) (kw : Kwargs) (X : PyVal) (l : Launch A) : Prop where
  names : ∀ k ∈ kw.map Prod.fst, k ∈ allowed
  nodes : ∃ v, kw.lookup "n_cluster_nodes" = some v ∧ Num v l.params.nClusterNodes
  pattern : ∃ v, kw.lookup "pattern_length" = some v ∧ Num v l.params.patternLength
  latent : if Empty (arg kw "latent" .none) then l.params.latent = l.params.patternLength / 3 else Num (arg kw "latent" .none) l.params.latent
  query : if Empty (arg kw "query_length" .none) then l.params.queryLength = l.params.patternLength
    else Num (arg kw "query_length" .none) l.params.queryLength
  rate : Num (arg kw "rate" (.int 100)) l.params.rate
  threads : ∃ z, Num (arg kw "n_threads" (.int (-1))) z ∧ l.params.nThreads = if 0 < z then z.toNat else if cpus = 1 then 0 else 1
  clustering : arg kw "clustering" (.method .kde) = .method .kde
  correction : arg kw "self_correction" (.bool false) = .bool l.params.selfCorrection
  host : ∃ s, arg kw "local_host" (.str "127.0.0.1:1992") = .str s ∧ parse s = some l.localHost
  columnStart : Num (arg kw "column_start_idx" (.int 0)) l.columnStart
  columnEnd : Num (arg kw "column_end_idx" (.int 0)) l.columnEnd
  output : l.output = some (arg kw "output_path" (.path "anomaly_scores.ts")).toStr
  source : match role with
    | .main => l.source = .main X.toStr
    | .sub => ∃ s a, kw.lookup "mainhost" = some (.str s) ∧ parse s = some a ∧ l.source = .sub a

theorem number_eq {v : PyVal} {z : Int} : v.number = some z ↔ Num v z := by
  cases v with
  | bool b => cases b <;> simp [PyVal.number, Num, eq_comm]
  | _ => simp [PyVal.number, Num]

theorem usize_eq {v : PyVal} {n : Nat} : v.usize = some n ↔ Num v n := by
  rw [← number_eq]
  unfold PyVal.usize
  cases hv : v.number with
  | none => simp
  | some z =>
    rw [Option.bind_some, Option.some.injEq]
    split
    · exact ⟨fun h => by simp at h, fun h => by omega⟩
    · rw [Option.some.injEq]
      omega

theorem truthy_eq {v : PyVal} : v.truthy = false ↔ Empty v := by
  cases v <;> simp [PyVal.truthy, Empty]

theorem truthy_ite {α : Type} {v : PyVal} {a b : α} : (if v.truthy = true then a else b) = if Empty v then b else a := by
  by_cases h : Empty v
  · rw [if_pos h, if_neg (by rw [truthy_eq.2 h]; decide)]
  · rw [if_neg h, if_pos (by rw [← truthy_eq] at h; simpa using h)]

theorem clustering_eq {v : PyVal} {u : Unit} : v.value.bind fromStr = some u ↔ v = .method .kde := by
  cases v with
  | method m => cases m <;> simp [PyVal.value, fromStr]
  | role r => cases r <;> simp [PyVal.value, fromStr]
  | _ => simp [PyVal.value]

theorem bool_eq {v : PyVal} {b : Bool} : v.asBool = some b ↔ v = .bool b := by
  cases v <;> simp [PyVal.asBool]

theorem string_eq {v : PyVal} {s : String} : v.string = some s ↔ v = .str s := by
  cases v <;> simp [PyVal.string]

theorem lookup_filter {kw : Kwargs} {f : String → Bool} {n : String} (h : f n = true) : (kw.filter fun x => f x.1).lookup n = kw.lookup n := by
  induction kw with
  | nil => rfl
  | cons x kw ih =>
    rw [List.filter_cons]
    by_cases hx : n = x.1
    · subst hx
      rw [if_pos h, List.lookup_cons, List.lookup_cons]
      simp
    · split
      · rw [List.lookup_cons, List.lookup_cons, ih]
      · rw [ih, List.lookup_cons, show (n == x.1) = false by simpa using hx]

theorem or_some {kw : Kwargs} {n : String} {d : PyVal} : (kw.lookup n).or (some d) = some (arg kw n d) := by
  unfold arg
  cases kw.lookup n <;> rfl

/-- The constructor with keywords only. -/
theorem create_eq {role : DistRole} {cpus : Nat} {kw : Kwargs} {x : Dist} : create role cpus [] kw = some x ↔
    (∀ k ∈ kw.map Prod.fst, k ∈ allowed) ∧ x.role = .role role ∧ kw.lookup "n_cluster_nodes" = some x.nClusterNodes ∧
      kw.lookup "pattern_length" = some x.patternLength ∧
      (if Empty (arg kw "latent" .none) then ∃ z, Num x.patternLength z ∧ x.latent = .int (z.tdiv 3) else x.latent = arg kw "latent" .none) ∧
      x.queryLength = (if Empty (arg kw "query_length" .none) then x.patternLength else arg kw "query_length" .none) ∧
      x.rate = arg kw "rate" (.int 100) ∧
      (∃ z, Num (arg kw "n_threads" (.int (-1))) z ∧
        x.nThreads = if z > 0 then arg kw "n_threads" (.int (-1)) else .int (min ((cpus : Int) - 1) 1)) ∧
      x.clustering = arg kw "clustering" (.method .kde) ∧ x.selfCorrection = arg kw "self_correction" (.bool false) ∧
      x.localHost = arg kw "local_host" (.str "127.0.0.1:1992") ∧ x.columnStart = arg kw "column_start_idx" (.int 0) ∧
      x.columnEnd = arg kw "column_end_idx" (.int 0) ∧ x.outputPath = arg kw "output_path" (.path "anomaly_scores.ts") ∧
      x.mainhost = arg kw "mainhost" .none := by
  have hnames : (∀ k ∈ kw.map Prod.fst, k ∈ allowed) ↔ "_role" ∉ kw.map Prod.fst ∧ "self" ∉ kw.map Prod.fst ∧
      ∀ k ∈ ((("_role", PyVal.role role) :: kw).filter fun x => x.1 ∉ distNames.map Prod.fst).map Prod.fst, k ∈ baseNames.map Prod.fst := by
    constructor
    · intro h
      refine ⟨fun h1 => absurd (h _ h1) (by decide), fun h1 => absurd (h _ h1) (by decide), ?_⟩
      intro k hk
      obtain ⟨y, hy, rfl⟩ := List.mem_map.1 hk
      obtain ⟨hy1, hy2⟩ := List.mem_filter.1 hy
      rcases List.mem_cons.1 hy1 with rfl | hy1
      · exact absurd hy2 (by simp [distNames])
      · have := h _ (List.mem_map_of_mem hy1)
        simp only [allowed, List.mem_cons, List.not_mem_nil, or_false] at this
        simp only [distNames, baseNames, List.map_cons, List.map_nil, List.mem_cons, List.not_mem_nil, or_false, decide_eq_true_eq, not_or] at hy2 ⊢
        tauto
    · rintro ⟨h1, h2, h3⟩ k hk
      by_cases hd : k ∈ distNames.map Prod.fst
      · simp only [distNames, List.map_cons, List.map_nil, List.mem_cons, List.not_mem_nil, or_false] at hd
        rcases hd with rfl | rfl | rfl | rfl | rfl | rfl | rfl
        · exact absurd hk h2
        · exact absurd hk h1
        all_goals decide
      · obtain ⟨y, hy, rfl⟩ := List.mem_map.1 hk
        have := h3 y.1 (List.mem_map_of_mem (List.mem_filter.2 ⟨List.mem_cons_of_mem _ hy, by simpa using hd⟩))
        simp only [baseNames, List.map_cons, List.map_nil, List.mem_cons, List.not_mem_nil, or_false] at this
        simp only [distNames, List.map_cons, List.map_nil, List.mem_cons, List.not_mem_nil, or_false, not_or] at hd
        simp only [allowed, List.mem_cons, List.not_mem_nil, or_false]
        tauto
  have hlook : ∀ n, n ≠ "_role" → (("_role", PyVal.role role) :: kw).lookup n = kw.lookup n := by
    intro n hn
    rw [List.lookup_cons, show (n == "_role") = false by simpa using hn]
  have hfil : ∀ n, n ∉ distNames.map Prod.fst →
      ((("_role", PyVal.role role) :: kw).filter fun x => x.1 ∉ distNames.map Prod.fst).lookup n = kw.lookup n := by
    intro n hn
    rw [lookup_filter (f := fun y => decide (y ∉ distNames.map Prod.fst)) (by simpa using hn)]
    exact hlook n (fun h => hn (by rw [h]; decide))
  have hself : "self" ∉ ((("_role", PyVal.role role) :: kw).filter fun x => x.1 ∉ distNames.map Prod.fst).map Prod.fst := by
    intro h
    obtain ⟨y, hy, h1⟩ := List.mem_map.1 h
    have h2 := (List.mem_filter.1 hy).2
    rw [h1] at h2
    exact absurd h2 (by decide)
  have hbase : bindNames baseNames [.self] ((("_role", PyVal.role role) :: kw).filter fun x => x.1 ∉ distNames.map Prod.fst) =
      (kw.lookup "pattern_length").map fun L => [.self, L, arg kw "latent" .none, arg kw "rate" (.int 100), arg kw "query_length" .none,
        arg kw "n_threads" (.int (-1)), arg kw "clustering" (.method .kde), arg kw "self_correction" (.bool false),
        arg kw "local_host" (.str "127.0.0.1:1992")] := by
    generalize hF : (("_role", PyVal.role role) :: kw).filter (fun x => x.1 ∉ distNames.map Prod.fst) = F at hself hfil
    simp only [baseNames, bindNames]
    rw [if_neg hself, hfil _ (by decide), hfil _ (by decide), hfil _ (by decide), hfil _ (by decide), hfil _ (by decide), hfil _ (by decide),
      hfil _ (by decide), hfil _ (by decide)]
    simp only [or_some, Option.or_none]
    cases kw.lookup "pattern_length" <;> rfl
  have hdist : "self" ∉ kw.map Prod.fst → bindNames distNames [.self] (("_role", PyVal.role role) :: kw) =
      (kw.lookup "n_cluster_nodes").map fun n => [.self, .role role, n, arg kw "mainhost" .none, arg kw "output_path" (.path "anomaly_scores.ts"),
        arg kw "column_start_idx" (.int 0), arg kw "column_end_idx" (.int 0)] := by
    intro h
    simp only [distNames, bindNames]
    rw [if_neg (by simpa using h), List.lookup_cons_self, hlook "n_cluster_nodes" (by decide), hlook "mainhost" (by decide),
      hlook "output_path" (by decide), hlook "column_start_idx" (by decide), hlook "column_end_idx" (by decide)]
    simp only [or_some, Option.or_none]
    cases kw.lookup "n_cluster_nodes" <;> rfl
  rw [hnames]
  unfold create init initBase
  by_cases hr : "_role" ∈ kw.map Prod.fst
  · rw [if_pos hr]
    simp [hr]
  rw [if_neg hr]
  by_cases hs : "self" ∈ kw.map Prod.fst
  · have : bindNames distNames [.self] (("_role", PyVal.role role) :: kw) = none := by
      simp only [distNames, bindNames]
      rw [if_pos (by simpa using hs)]
    rw [this]
    simp [hs]
  rw [hdist hs]
  generalize hF : (("_role", PyVal.role role) :: kw).filter (fun x => x.1 ∉ distNames.map Prod.fst) = F at *
  cases h1 : kw.lookup "n_cluster_nodes" with
  | none => simp
  | some n =>
    rw [Option.map_some]
    have hd : List.drop distNames.length [PyVal.self] = [] := rfl
    simp only [hd]
    by_cases hk : ∀ k ∈ F.map Prod.fst, k ∈ baseNames.map Prod.fst
    · rw [if_pos ⟨by decide, hk⟩, hbase]
      cases h2 : kw.lookup "pattern_length" with
      | none => simp
      | some L =>
        simp only [Option.map_some]
        generalize arg kw "latent" .none = a1
        generalize arg kw "n_threads" (.int (-1)) = a2
        generalize arg kw "query_length" .none = a3
        obtain ⟨⟨x1, x2, x3, x4, x5, x6, x7, x8⟩, x9, x10, x11, x12, x13, x14⟩ := x
        simp only [truthy_ite]
        constructor
        · intro h
          obtain ⟨b, hb, h3⟩ := Option.map_eq_some_iff.1 h
          by_cases he : Empty a1
          · rw [if_pos he] at hb
            simp only [Option.bind_eq_bind, Option.bind_eq_some_iff, Option.map_eq_some_iff] at hb
            obtain ⟨v, ⟨z, hz, rfl⟩, t, ht, h4⟩ := hb
            cases h4
            cases h3
            exact ⟨⟨hr, hs, hk⟩, rfl, rfl, rfl, by rw [if_pos he]; exact ⟨z, number_eq.1 hz, rfl⟩, rfl, rfl, ⟨t, number_eq.1 ht, rfl⟩, rfl, rfl, rfl, rfl, rfl,
              rfl, rfl⟩
          · rw [if_neg he] at hb
            simp only [Option.bind_eq_bind, Option.bind_eq_some_iff] at hb
            obtain ⟨v, hv, t, ht, h4⟩ := hb
            cases hv
            cases h4
            cases h3
            exact ⟨⟨hr, hs, hk⟩, rfl, rfl, rfl, by rw [if_neg he], rfl, rfl, ⟨t, number_eq.1 ht, rfl⟩, rfl, rfl, rfl, rfl, rfl, rfl, rfl⟩
        · rintro ⟨-, h3, h4, h5, h6, h7, h8, ⟨z, h9, h10⟩, h11, h12, h13, h14, h15, h16, h17⟩
          cases h4
          cases h5
          subst h3 h7 h8 h10 h11 h12 h13 h14 h15 h16 h17
          rw [← number_eq] at h9
          by_cases he : Empty a1
          · rw [if_pos he] at h6 ⊢
            obtain ⟨u, hu, rfl⟩ := h6
            rw [← number_eq] at hu
            simp [hu, h9]
          · rw [if_neg he] at h6 ⊢
            subst h6
            simp [h9]
    · rw [if_neg fun h => hk h.2]
      exact ⟨fun h => by simp at h, fun h => absurd h.1.2.2 hk⟩

/-- The arguments of the run. -/
theorem launch_eq {parse : String → Option A} {x : Dist} {X : PyVal} {l : Launch A} : launch parse x X = some l ↔
    sourceOf parse x X = some l.source ∧ Num x.patternLength l.params.patternLength ∧ Num x.latent l.params.latent ∧
      Num x.queryLength l.params.queryLength ∧ Num x.rate l.params.rate ∧ Num x.nThreads l.params.nThreads ∧ Num x.columnStart l.columnStart ∧
      Num x.columnEnd l.columnEnd ∧ x.clustering = .method .kde ∧ x.selfCorrection = .bool l.params.selfCorrection ∧
      (∃ s, x.localHost = .str s ∧ parse s = some l.localHost) ∧ Num x.nClusterNodes l.params.nClusterNodes ∧
      l.output = some x.outputPath.toStr := by
  unfold launch
  simp only [Option.bind_eq_bind, Option.bind_eq_some_iff]
  constructor
  · rintro ⟨src, h1, L, h2, la, h3, q, h4, r, h5, t, h6, cs, h7, ce, h8, u, h9, sc, h10, lh, ⟨s, h11, h12⟩, n, h13, h14⟩
    cases h14
    exact ⟨h1, usize_eq.1 h2, usize_eq.1 h3, usize_eq.1 h4, usize_eq.1 h5, usize_eq.1 h6, usize_eq.1 h7, number_eq.1 h8,
      clustering_eq.1 (Option.bind_eq_some_iff.2 h9), bool_eq.1 h10, ⟨s, string_eq.1 h11, h12⟩, usize_eq.1 h13, rfl⟩
  · rintro ⟨h1, h2, h3, h4, h5, h6, h7, h8, h9, h10, ⟨s, h11, h12⟩, h13, h14⟩
    refine ⟨_, h1, _, usize_eq.2 h2, _, usize_eq.2 h3, _, usize_eq.2 h4, _, usize_eq.2 h5, _, usize_eq.2 h6, _, usize_eq.2 h7, _, number_eq.2 h8, (),
      Option.bind_eq_some_iff.1 (clustering_eq.2 h9), _, bool_eq.2 h10, _, ⟨s, string_eq.2 h11, h12⟩, _, usize_eq.2 h13, ?_⟩
    rw [← h14]

theorem num_unique {v : PyVal} {a b : Int} (h : Num v a) (h' : Num v b) : a = b := by
  rw [← number_eq] at h h'
  rw [h] at h'
  exact Option.some.inj h'

theorem num_int {a b : Int} : Num (.int a) b ↔ a = b := by
  simp [Num]

/-- **C95 (exact).** What the keywords of `main` and `sub` start, and with which keywords they start anything. -/
theorem C95_exact {parse : String → Option A} {role : DistRole} {cpus : Nat} (hc : 1 ≤ cpus) {kw : Kwargs} {X : PyVal} {l : Launch A} :
    start parse role cpus [] kw X = some l ↔ Meant parse role cpus kw X l := by
  unfold start
  rw [Option.bind_eq_some_iff]
  have hmin : ∀ z : Int, ¬ 0 < z → min ((cpus : Int) - 1) 1 = ((if 0 < z then z.toNat else if cpus = 1 then 0 else 1 : Nat) : Int) := by
    intro z hz
    rw [if_neg hz]
    split <;> omega
  constructor
  · rintro ⟨x, hx, hl⟩
    obtain ⟨h1, h2, h3, h4, h5, h6, h7, ⟨z, h8, h9⟩, h10, h11, h12, h13, h14, h15, h16⟩ := create_eq.1 hx
    obtain ⟨g1, g2, g3, g4, g5, g6, g7, g8, g9, g10, g11, g12, g13⟩ := launch_eq.1 hl
    refine ⟨h1, ⟨_, h3, g12⟩, ⟨_, h4, g2⟩, ?_, ?_, h7 ▸ g5, ⟨z, h8, ?_⟩, h10 ▸ g9, h11 ▸ g10, h12 ▸ g11, h13 ▸ g7, h14 ▸ g8, h15 ▸ g13, ?_⟩
    · split
      · rename_i he
        rw [if_pos he] at h5
        obtain ⟨y, hy, h5⟩ := h5
        rw [h5, num_int] at g3
        rw [num_unique hy g2] at g3
        have : Int.tdiv (l.params.patternLength : Int) 3 = ((l.params.patternLength / 3 : Nat) : Int) := rfl
        omega
      · rename_i he
        rw [if_neg he] at h5
        exact h5 ▸ g3
    · split
      · rename_i he
        rw [if_pos he] at h6
        rw [h6] at g4
        exact_mod_cast num_unique g4 g2
      · rename_i he
        rw [if_neg he] at h6
        exact h6 ▸ g4
    · rw [h9] at g6
      by_cases hz : 0 < z
      · rw [if_pos hz] at g6 ⊢
        have := num_unique g6 h8
        omega
      · rw [if_neg hz, num_int, hmin z hz] at g6
        exact_mod_cast g6.symm
    · unfold sourceOf at g1
      rw [h2] at g1
      cases role with
      | main => exact (Option.some.inj g1).symm
      | sub =>
        rw [if_neg (by decide), Option.map_eq_some_iff] at g1
        obtain ⟨a, ha, g1⟩ := g1
        obtain ⟨s, hs, ha⟩ := Option.bind_eq_some_iff.1 ha
        rw [string_eq, h16] at hs
        refine ⟨s, a, ?_, ha, g1.symm⟩
        unfold arg at hs
        cases hm : kw.lookup "mainhost" with
        | none => rw [hm] at hs; cases hs
        | some v => rw [hm] at hs; exact congrArg some hs
  · intro h
    obtain ⟨n, h3, g12⟩ := h.nodes
    obtain ⟨L, h4, g2⟩ := h.pattern
    obtain ⟨z, h8, h9⟩ := h.threads
    refine ⟨⟨⟨L, if Empty (arg kw "latent" .none) then .int ((l.params.patternLength : Int).tdiv 3) else arg kw "latent" .none, arg kw "rate" (.int 100),
      if Empty (arg kw "query_length" .none) then L else arg kw "query_length" .none,
      if z > 0 then arg kw "n_threads" (.int (-1)) else .int (min ((cpus : Int) - 1) 1), arg kw "clustering" (.method .kde),
      arg kw "self_correction" (.bool false), arg kw "local_host" (.str "127.0.0.1:1992")⟩, .role role, arg kw "output_path" (.path "anomaly_scores.ts"),
      arg kw "column_start_idx" (.int 0), arg kw "column_end_idx" (.int 0), n, arg kw "mainhost" .none⟩, create_eq.2 ?_, launch_eq.2 ?_⟩
    · refine ⟨h.names, rfl, h3, h4, ?_, rfl, rfl, ⟨z, h8, rfl⟩, rfl, rfl, rfl, rfl, rfl, rfl, rfl⟩
      split
      · exact ⟨_, g2, rfl⟩
      · rfl
    · refine ⟨?_, g2, ?_, ?_, h.rate, ?_, h.columnStart, h.columnEnd, h.clustering, h.correction, h.host, g12, h.output⟩
      · have hs := h.source
        unfold sourceOf
        cases role with
        | main => exact congrArg some hs.symm
        | sub =>
          obtain ⟨s, a, h1, h2, h5⟩ := hs
          dsimp only
          rw [if_neg (by decide), Option.map_eq_some_iff]
          refine ⟨a, Option.bind_eq_some_iff.2 ⟨s, ?_, h2⟩, h5.symm⟩
          unfold arg
          rw [h1]
          rfl
      · have := h.latent
        split at this
        · rw [if_pos ‹_›, num_int, this]
          rfl
        · rw [if_neg ‹_›]
          exact this
      · have := h.query
        dsimp only
        split at this
        · rw [if_pos ‹_›, this]
          exact g2
        · rw [if_neg ‹_›]
          exact this
      · rw [h9]
        by_cases hz : 0 < z
        · rw [if_pos hz, if_pos hz, Int.toNat_of_nonneg hz.le]
          exact h8
        · rw [if_neg hz, num_int]
          exact hmin z hz

/-- **C95 (positional arguments).** FALSE: `main` and `sub` take the arguments of the constructor. With any positional argument they raise a `TypeError`, as
it is taken for the role. -/
theorem C95_positional {parse : String → Option A} {role : DistRole} {cpus : Nat} {args : List PyVal} (ha : args ≠ []) {kw : Kwargs} {X : PyVal} :
    start parse role cpus args kw X = none := by
  obtain ⟨a, args, rfl⟩ := List.exists_cons_of_ne_nil ha
  have : create role cpus (a :: args) kw = none := by
    unfold create init
    split
    · rfl
    · simp only [distNames, bindNames]
      simp
  unfold start
  rw [this]
  rfl

theorem lookup_perm {kw kw' : Kwargs} (h : kw.Perm kw') (hn : (kw.map Prod.fst).Nodup) (n : String) : kw.lookup n = kw'.lookup n := by
  induction h with
  | nil => rfl
  | cons x _ ih =>
    rw [List.lookup_cons, List.lookup_cons, ih (List.nodup_cons.1 hn).2]
  | swap x y l =>
    obtain ⟨x, u⟩ := x
    obtain ⟨y, v⟩ := y
    have h1 : x ≠ y := by
      rw [List.map_cons, List.map_cons, List.nodup_cons] at hn
      exact fun h => hn.1 (by simp [h])
    simp only [List.lookup_cons]
    by_cases hx : n = x
    · subst hx
      rw [show (n == y) = false by simpa using h1]
    · rw [show (n == x) = false by simpa using hx]
  | trans h1 _ ih1 ih2 => rw [ih1 hn, ih2 (((h1.map _).nodup_iff).1 hn)]

theorem Meant.congr {parse : String → Option A} {role : DistRole} {cpus : Nat} {kw kw' : Kwargs} (hl : ∀ n, kw.lookup n = kw'.lookup n)
    (hk : ∀ k ∈ kw'.map Prod.fst, k ∈ kw.map Prod.fst) {X : PyVal} {l : Launch A} (h : Meant parse role cpus kw X l) : Meant parse role cpus kw' X l := by
  have ha : ∀ n d, arg kw n d = arg kw' n d := fun n d => by unfold arg; rw [hl]
  obtain ⟨h1, h2, h3, h4, h5, h6, h7, h8, h9, h10, h11, h12, h13, h14⟩ := h
  simp only [hl, ha] at h2 h3 h4 h5 h6 h7 h8 h9 h10 h11 h12 h13 h14
  exact ⟨fun k hk' => h1 k (hk k hk'), h2, h3, h4, h5, h6, h7, h8, h9, h10, h11, h12, h13, h14⟩

/-- **C95 (order).** The order of the keywords does not matter. -/
theorem C95_order {parse : String → Option A} {role : DistRole} {cpus : Nat} (hc : 1 ≤ cpus) {kw kw' : Kwargs} (h : kw.Perm kw')
    (hn : (kw.map Prod.fst).Nodup) {X : PyVal} : start parse role cpus [] kw X = start parse role cpus [] kw' X := by
  have hl := lookup_perm h hn
  have hk : ∀ k, k ∈ kw.map Prod.fst ↔ k ∈ kw'.map Prod.fst := fun k => (h.map Prod.fst).mem_iff
  have key : ∀ l, Meant parse role cpus kw X l ↔ Meant parse role cpus kw' X l :=
    fun l => ⟨Meant.congr hl fun k => (hk k).2, Meant.congr (fun n => (hl n).symm) fun k => (hk k).1⟩
  apply Option.ext
  intro l
  rw [C95_exact hc, C95_exact hc, key]

/-- Two processes are given the same values, except for what is particular to a process. -/
def Agree (kw kw' : Kwargs) : Prop := ∀ n, n ≠ "local_host" → n ≠ "mainhost" → n ≠ "output_path" → kw.lookup n = kw'.lookup n

theorem Agree.arg {kw kw' : Kwargs} (h : Agree kw kw') {n : String} {d : PyVal} (h1 : n ≠ "local_host") (h2 : n ≠ "mainhost")
    (h3 : n ≠ "output_path") : DistEstimator.arg kw n d = DistEstimator.arg kw' n d := by
  unfold DistEstimator.arg
  rw [h n h1 h2 h3]

/-- **C95 (the same parameters).** Processes which are given the same values run with the same columns, and with the same parameters exactly if the number of threads is
given as a positive number, or both machines have one processor, or both have several. -/
theorem C95_same {parse : String → Option A} {role role' : DistRole} {cpus cpus' : Nat} (hc : 1 ≤ cpus) (hc' : 1 ≤ cpus') {kw kw' : Kwargs} {X X' : PyVal}
    {l l' : Launch A} (h : start parse role cpus [] kw X = some l) (h' : start parse role' cpus' [] kw' X' = some l') (ha : Agree kw kw') :
    l.columnStart = l'.columnStart ∧ l.columnEnd = l'.columnEnd ∧
      (l.params = l'.params ↔ (∃ z, Num (arg kw "n_threads" (.int (-1))) z ∧ 0 < z) ∨ (cpus = 1 ↔ cpus' = 1)) := by
  rw [C95_exact hc] at h
  rw [C95_exact hc'] at h'
  have e1 := h'.columnStart
  have e2 := h'.columnEnd
  rw [← ha.arg (by decide) (by decide) (by decide)] at e1 e2
  refine ⟨by exact_mod_cast num_unique h.columnStart e1, num_unique h.columnEnd e2, ?_⟩
  obtain ⟨v, hv, hn⟩ := h.nodes
  obtain ⟨v', hv', hn'⟩ := h'.nodes
  rw [← ha _ (by decide) (by decide) (by decide), hv] at hv'
  cases hv'
  obtain ⟨w, hw, hL⟩ := h.pattern
  obtain ⟨w', hw', hL'⟩ := h'.pattern
  rw [← ha _ (by decide) (by decide) (by decide), hw] at hw'
  cases hw'
  obtain ⟨z, hz, ht⟩ := h.threads
  obtain ⟨z', hz', ht'⟩ := h'.threads
  rw [← ha.arg (by decide) (by decide) (by decide)] at hz'
  cases num_unique hz hz'
  have e3 := h'.latent
  have e4 := h'.query
  have e5 := h'.rate
  have e6 := h'.correction
  rw [← ha.arg (by decide) (by decide) (by decide)] at e3 e4 e5 e6
  have p1 : l.params.nClusterNodes = l'.params.nClusterNodes := by exact_mod_cast num_unique hn hn'
  have p2 : l.params.patternLength = l'.params.patternLength := by exact_mod_cast num_unique hL hL'
  have p3 : l.params.latent = l'.params.latent := by
    have e7 := h.latent
    split at e3
    · rw [if_pos ‹_›] at e7
      rw [e7, e3, p2]
    · rw [if_neg ‹_›] at e7
      exact_mod_cast num_unique e7 e3
  have p4 : l.params.queryLength = l'.params.queryLength := by
    have e7 := h.query
    split at e4
    · rw [if_pos ‹_›] at e7
      rw [e7, e4, p2]
    · rw [if_neg ‹_›] at e7
      exact_mod_cast num_unique e7 e4
  have p5 : l.params.rate = l'.params.rate := by exact_mod_cast num_unique h.rate e5
  have p6 : l.params.selfCorrection = l'.params.selfCorrection := by
    have e7 := h.correction
    rw [e6] at e7
    exact (PyVal.bool.inj e7).symm
  have p7 : l.params = l'.params ↔ l.params.nThreads = l'.params.nThreads := by
    constructor
    · exact fun h => congrArg Parameters.nThreads h
    · intro h
      revert p1 p2 p3 p4 p5 p6 h
      cases l.params
      cases l'.params
      intros
      simp_all
  rw [p7, ht, ht']
  have p8 : (∃ z, Num (arg kw "n_threads" (.int (-1))) z ∧ 0 < z) ↔ 0 < z :=
    ⟨fun ⟨y, hy, h0⟩ => by rwa [num_unique hz hy], fun h0 => ⟨z, hz, h0⟩⟩
  rw [p8]
  by_cases h0 : 0 < z
  · simp [h0]
  · rw [if_neg h0, if_neg h0]
    by_cases h1 : cpus = 1 <;> by_cases h2 : cpus' = 1 <;> simp [h0, h1, h2]

/-- **C95 (local).** The parameters are those of the local estimator of the same arguments, except for the number of nodes. -/
theorem C95_local {parse : String → Option A} {role : DistRole} {cpus : Nat} (hc : 1 ≤ cpus) {kw : Kwargs} {X : PyVal} {l : Launch A}
    (h : start parse role cpus [] kw X = some l) {L r z : Int} {sc : Bool} (hL : Num (arg kw "pattern_length" .none) L) (hr : Num (arg kw "rate" (.int 100)) r)
    (hz : Num (arg kw "n_threads" (.int (-1))) z) (hsc : arg kw "self_correction" (.bool false) = .bool sc) :
    (Estimator.new cpus L (arg kw "latent" .none).number r (arg kw "query_length" .none).number z sc).parameters =
      some { l.params with nClusterNodes := 1 } := by
  rw [C95_exact hc] at h
  rw [Estimator.parameters_eq]
  refine ⟨?_, rfl⟩
  obtain ⟨v, hv, hn⟩ := h.pattern
  have h1 : arg kw "pattern_length" .none = v := by
    unfold arg
    rw [hv]
    rfl
  rw [h1] at hL
  cases num_unique hn hL
  cases num_unique hr h.rate
  obtain ⟨z', hz', ht⟩ := h.threads
  cases num_unique hz hz'
  have hs := h.correction
  rw [hsc] at hs
  cases hs
  have hor : ∀ (a : PyVal) (d n : Nat), (if Empty a then n = d else Num a n) → pyOr a.number d = some (n : Int) := by
    intro a d n ha
    by_cases he : Empty a
    · rw [if_pos he] at ha
      subst ha
      rcases he with rfl | rfl | rfl | rfl <;> rfl
    · rw [if_neg he] at ha
      rw [number_eq.2 ha]
      refine if_neg ?_
      intro h0
      apply he
      rw [h0] at ha
      rcases ha with ha | ha | ha
      · exact .inr (.inl ha)
      · omega
      · exact .inr (.inr (.inl ha.1))
  unfold Estimator.new
  simp only [Estimator.mk.injEq, true_and, and_true]
  refine ⟨?_, ?_, ?_⟩
  · exact hor _ (l.params.patternLength / 3) _ h.latent
  · exact hor _ _ _ h.query
  · rw [ht]
    congr 1
    unfold Estimator.threads
    by_cases h0 : 0 < z
    · rw [if_pos h0, if_pos h0]
      omega
    · rw [if_neg h0, if_neg h0]
      split <;> omega

/-- **C95 (main host).** A sub node without `mainhost` is refused by `fit_predict`; the main node does not look at it. -/
theorem C95_mainhost {parse : String → Option A} {cpus : Nat} (hc : 1 ≤ cpus) {kw : Kwargs} {X : PyVal} (h : kw.lookup "mainhost" = none) :
    start parse .sub cpus [] kw X = none := by
  rw [Option.eq_none_iff_forall_ne_some]
  intro l hl
  rw [C95_exact hc] at hl
  obtain ⟨s, a, h1, -⟩ := hl.source
  rw [h] at h1
  cases h1

/-- **C95 (output).** FALSE: `output_path=None` switches the output file off. Every run writes a file; with `None` one with this name. And `fit_predict` of the
main node without a path does not raise an error but looks for a file with the name `None`. -/
theorem C95_output {parse : String → Option A} {role : DistRole} {cpus : Nat} (hc : 1 ≤ cpus) {kw : Kwargs} {X : PyVal} {l : Launch A}
    (h : start parse role cpus [] kw X = some l) : l.output ≠ none ∧ (kw.lookup "output_path" = some .none → l.output = some "None") ∧
      (role = .main → X = .none → l.source = .main "None") := by
  rw [C95_exact hc] at h
  refine ⟨by rw [h.output]; simp, ?_, ?_⟩
  · intro h1
    rw [h.output]
    unfold arg
    rw [h1]
    rfl
  · rintro rfl rfl
    exact h.source

/-- **C95 (clustering).** FALSE: the names which the command line and the error message use can be given. `"kde"` is refused as well as `Clustering.MeanShift`. -/
theorem C95_clustering {parse : String → Option A} {role : DistRole} {cpus : Nat} (hc : 1 ≤ cpus) {kw : Kwargs} {X v : PyVal}
    (h : kw.lookup "clustering" = some v) (hv : v ≠ .method .kde) : start parse role cpus [] kw X = none := by
  rw [Option.eq_none_iff_forall_ne_some]
  intro l hl
  rw [C95_exact hc] at hl
  have := hl.clustering
  unfold arg at this
  rw [h] at this
  exact hv this

/-! ### Processes without a cluster -/

/-- **C95 (alone).** With `n_cluster_nodes` at most 1 a process does not wait for others. It gets data to work on exactly if it is the main node and `n_cluster_nodes` is 1: a
sub node waits for ever, and with `n_cluster_nodes=0` the main node puts the rows away and waits for ever. -/
theorem C95_alone {D : Type} {l : Launch A} {rows : List D} :
    (∃ s, Alone l rows s ∧ s.processed ≠ []) ↔ (∃ path, l.source = .main path) ∧ l.params.nClusterNodes = 1 := by
  have hconn : ∀ s : DataMgr (List D), s.nodes = ⟨[]⟩ → (s.nodes.allConnected l.params = true ↔ l.params.nClusterNodes = 1) := by
    intro s hs
    rw [hs]
    exact beq_iff_eq.trans eq_comm
  constructor
  · rintro ⟨s, h, hne⟩
    have key : s.nodes = ⟨[]⟩ ∧ (∀ m ∈ s.mailbox, (∃ x, m = .partition x) ∧ ∃ path, l.source = .main path) ∧
        (s.processed ≠ [] → (∃ path, l.source = .main path) ∧ l.params.nClusterNodes = 1) := by
      clear hne
      induction h with
      | @init s h =>
        unfold alone at h
        cases hs : l.source with
        | main path =>
          rw [hs] at h
          obtain ⟨ps, -, h⟩ := Option.map_eq_some_iff.1 h
          subst h
          refine ⟨rfl, ?_, fun h => absurd rfl h⟩
          intro m hm
          obtain ⟨x, -, rfl⟩ := List.mem_map.1 hm
          exact ⟨⟨_, rfl⟩, path, rfl⟩
        | sub a =>
          rw [hs] at h
          cases h
          exact ⟨rfl, fun m hm => absurd hm (by simp), fun h => absurd rfl h⟩
      | @process s h m rest hm ih =>
        obtain ⟨i1, i2, i3⟩ := ih
        obtain ⟨⟨x, rfl⟩, hp⟩ := i2 m (by rw [hm]; simp)
        have hrest : ∀ m ∈ rest, (∃ x, m = .partition x) ∧ ∃ path, l.source = .main path := fun m' h' => i2 m' (by rw [hm]; simp [h'])
        by_cases hc : s.nodes.allConnected l.params = true
        · rw [show DataMgr.handle l.params { s with mailbox := rest } (.partition x) = { s with mailbox := rest, processed := s.processed ++ [x] } from
            if_pos hc]
          exact ⟨i1, hrest, fun _ => ⟨hp, (hconn s i1).1 hc⟩⟩
        · rw [show DataMgr.handle l.params { s with mailbox := rest } (.partition x) = { s with mailbox := rest, buffer := s.buffer ++ [x] } from
            if_neg hc]
          exact ⟨i1, hrest, i3⟩
    exact key.2.2 hne
  · rintro ⟨⟨path, hs⟩, hn⟩
    have h0 : alone l rows = some { mailbox := [.partition rows] } := by
      unfold alone
      rw [hs]
      dsimp only
      rw [DataReader.C06_single_node]
      rfl
    refine ⟨_, .process (.init h0) _ [] rfl, ?_⟩
    rw [show DataMgr.handle l.params { mailbox := [] } (.partition rows) = { mailbox := [], processed := [rows] } from
      if_pos ((hconn _ rfl).2 hn)]
    simp

/-! ### Clusters -/

section
open Joint Cluster Whole Points Pca

variable {e w : Nat} {lib : Lib w} {resolution order : Nat} {series : List (Fin (e + 1) → ℝ)}

/-- **C95 (cluster).** Two or three processes are started with the same values, with a positive number of threads (or all on machines with several processors). All run
with the same parameters, and under the conditions of C87 every node can deliver exactly the vectors which `Series2GraphPP` of the same arguments returns. -/
theorem C95_cluster {parse : String → Option A} {cpus : Nat → Nat} (hc : ∀ i, 1 ≤ cpus i) {kw : Nat → Kwargs} {X : Nat → PyVal} {l : Nat → Launch A} {n : Nat}
    (hstart : ∀ i < n, start parse (if i = 0 then .main else .sub) (cpus i) [] (kw i) (X i) = some (l i)) (hagree : ∀ i < n, Agree (kw 0) (kw i))
    (hthreads : (∃ z, Num (arg (kw 0) "n_threads" (.int (-1))) z ∧ 0 < z) ∨ ∀ i < n, cpus i ≠ 1) {p : Parameters} (hp0 : p = (l 0).params)
    (hn : p.nClusterNodes = n) (hk : 2 ≤ n) (hk3 : n ≤ 3)
    (hqr : ∀ A, gram (lib.qr A) = gram A) (hs : ∀ m, Settled lib (windows w p series m)) (hp : p.WellFormed)
    (hf : Fits p series.length)
    (hch : ∀ i < p.nClusterNodes, 0 < count p series.length i ∧ Chunked p.nThreads (count p series.length i)) {q m : List Point}
    (hq : PointsOf lib p series q) (hm : q.mapM (mirrorPoint p.rate) = some m) (hdec : SameDecision p series.length q)
    (g : Good p series.length (Cluster.parts p series.length q m))
    {L r z : Int} {sc : Bool} (hL : Num (arg (kw 0) "pattern_length" .none) L) (hr : Num (arg (kw 0) "rate" (.int 100)) r)
    (hz : Num (arg (kw 0) "n_threads" (.int (-1))) z) (hsc : arg (kw 0) "self_correction" (.bool false) = .bool sc) :
    ∀ i < n, (l i).params = p ∧ ∀ v, FileDelivers lib resolution order (l i).params series i v ↔
      Estimator.FitPredict lib resolution order
        (Estimator.new (cpus 0) L (arg (kw 0) "latent" .none).number r (arg (kw 0) "query_length" .none).number z sc) series v := by
  intro i hi
  have h1 : (l 0).params = (l i).params := by
    refine (C95_same (hc 0) (hc i) (hstart 0 (by omega)) (hstart i hi) (hagree i hi)).2.2.2 ?_
    refine hthreads.imp id fun h => ?_
    have := h 0 (by omega)
    have := h i hi
    tauto
  have ht : 1 ≤ p.nThreads := by
    obtain ⟨y, hy, h2⟩ := ((C95_exact (hc 0)).1 (hstart 0 (by omega))).threads
    rw [hp0, h2]
    rcases hthreads with ⟨u, hu, h0⟩ | h
    · rw [num_unique hy hu, if_pos h0]
      omega
    · rw [if_neg (h 0 (by omega))]
      split <;> omega
  refine ⟨by rw [hp0, h1], fun v => ?_⟩
  rw [← h1, ← hp0, C87_one_node hqr hs hp (by omega) (by omega) hf ht hch hq hm hdec g (by omega) v, Estimator.C79_returns]
  have h2 := C95_local (hc 0) (hstart 0 (by omega)) hL hr hz hsc
  rw [h2, ← hp0]
  constructor
  · exact fun h => ⟨_, rfl, ht, h⟩
  · rintro ⟨p', h3, -, h4⟩
    cases h3
    exact h4

end

/-! ### The calls of the README -/

def readmeMain : Kwargs := [("local_host", .str "127.0.0.1:1992"), ("n_cluster_nodes", .int 2), ("pattern_length", .int 100)]

def readmeSub : Kwargs :=
  [("local_host", .str "127.0.0.1:1993"), ("mainhost", .str "127.0.0.1:1992"), ("n_cluster_nodes", .int 2), ("pattern_length", .int 100)]

/-- Both processes start, with the same parameters; without `mainhost`, with the pattern length as a positional argument, or with a misspelt keyword they do not. -/
example : (∃ l l', start (A := String) some .main 8 [] readmeMain (.path "data/ts_0.csv") = some l ∧ start (A := String) some .sub 8 [] readmeSub = some l' ∧
      l.params = ⟨100, 33, 100, 100, 1, 2, false⟩ ∧ l'.params = l.params ∧ l.source = .main "data/ts_0.csv" ∧ l'.source = .sub "127.0.0.1:1992") ∧
    start (A := String) some .sub 8 [] readmeMain = none ∧ start (A := String) some .main 8 [.int 100] readmeMain = none ∧
    start (A := String) some .main 8 [] (("querylength", .int 100) :: readmeMain) = none :=
  ⟨⟨_, _, rfl, rfl, rfl, rfl, rfl, rfl⟩, C95_mainhost (by decide) rfl, C95_positional (by simp), rfl⟩

/-- On a machine with one processor the sub node of the README has no thread, and so not the parameters of the main node. -/
example : ∃ l l', start (A := String) some .main 8 [] readmeMain (.path "data/ts_0.csv") = some l ∧ start (A := String) some .sub 1 [] readmeSub = some l' ∧
    l'.params.nThreads = 0 ∧ l.params ≠ l'.params :=
  ⟨_, _, rfl, rfl, rfl, by decide⟩

/-- A main process of which `n_cluster_nodes` is 1 gets its rows; with 0 it does not. -/
example : (∃ l, start (A := String) some .main 8 [] [("n_cluster_nodes", .int 1), ("pattern_length", .int 4)] (.path "x.csv") = some l ∧
      ∃ s, Alone l (List.range 20) s ∧ s.processed ≠ []) ∧
    ∃ l, start (A := String) some .main 8 [] [("n_cluster_nodes", .int 0), ("pattern_length", .int 4)] (.path "x.csv") = some l ∧
      ¬ ∃ s, Alone l (List.range 20) s ∧ s.processed ≠ [] :=
  ⟨⟨_, rfl, C95_alone.2 ⟨⟨_, rfl⟩, rfl⟩⟩, ⟨_, rfl, fun h => absurd (C95_alone.1 h).2 (by decide)⟩⟩

end DistEstimator
end S2G
