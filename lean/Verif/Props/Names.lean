import Verif.Model.Names
import Verif.Proofs.LazyText

/-!
# C33: the names of the generated variables
-/

namespace Verif.Names
open Alias (Str)
open Lazy (num)

/-- The names of an answer. -/
def names : Str ⊕ List Str → List Str
  | .inl x => [x]
  | .inr xs => xs

/-- Successive single names. -/
def ones (d : Dict) : List Str → List Str
  | [] => []
  | t :: ts => (one d t).1 :: ones (one d t).2 ts

/-- The dictionary after them. -/
def after (d : Dict) : List Str → Dict
  | [] => d
  | t :: ts => after (one d t).2 ts

theorem ones_append (d : Dict) (ts us : List Str) : ones d (ts ++ us) = ones d ts ++ ones (after d ts) us := by
  induction ts generalizing d with
  | nil => rfl
  | cons t ts ih => simp [ones, after, ih]

theorem many_eq (d : Dict) (t : Str) (n : Nat) :
    many d t n = (ones d (List.replicate n t), after d (List.replicate n t)) := by
  induction n generalizing d with
  | zero => rfl
  | succ n ih => simp [many, ih, List.replicate_succ, ones, after]

/-- How many names a call asks for. -/
def Req.count (r : Req) : Nat := if r.num > 1 ∨ r.asList = true then r.num else 1

theorem run_eq (d : Dict) (rs : List Req) :
    (run d rs).flatMap names = ones d (rs.flatMap (fun r => List.replicate r.count r.template)) := by
  induction rs generalizing d with
  | nil => rfl
  | cons r rs ih =>
    have h : names (call d r).1 = ones d (List.replicate r.count r.template) ∧
        (call d r).2 = after d (List.replicate r.count r.template) := by
      unfold call Req.count
      by_cases h : r.num > 1 ∨ r.asList = true
      · rw [if_pos h, if_pos h, many_eq]
        exact ⟨rfl, rfl⟩
      · rw [if_neg h, if_neg h]
        exact ⟨rfl, rfl⟩
    simp only [run, List.flatMap_cons, ones_append, h.1, h.2, ih]

theorem lookup_set (d : Dict) (t u : Str) (n : Nat) :
    (set d t n).lookup u = if u = t then some n else d.lookup u := by
  unfold set
  by_cases h : u = t
  · subst h
    simp
  · rw [List.lookup_cons, if_neg h]
    have : (u == t) = false := by simpa using h
    rw [this]
    induction d with
    | nil => rfl
    | cons p d ih =>
      obtain ⟨v, m⟩ := p
      by_cases hv : v = t
      · subst hv
        simp only [ne_eq, decide_not, not_true_eq_false, decide_false, Bool.false_eq_true, not_false_eq_true,
          List.filter_cons_of_neg, decide_true, Bool.not_true, List.lookup_cons, this] at ih ⊢
        exact ih
      · rw [List.filter_cons_of_pos (by simpa using hv), List.lookup_cons, List.lookup_cons]
        cases (u == v) <;> simp_all

/-- A name that the dictionary `d` may still produce. -/
def Fresh (d : Dict) (x : Str) : Prop :=
  ∃ t c, x = t ++ '_' :: num c ∧ ∀ c', d.lookup t = some c' → c' < c

/-- Two names are equal only if they have the same base name and the same count. -/
theorem name_inj {t t' : Str} {c c' : Nat} (h : t ++ '_' :: num c = t' ++ '_' :: num c') : t = t' ∧ c = c' := by
  have key : ∀ n, '_' ∉ num n := fun n hn => by
    have := Lazy.isDigit_num hn
    revert this
    decide
  have h' := congrArg List.reverse h
  simp only [List.reverse_append, List.reverse_cons, List.append_assoc, List.singleton_append] at h'
  have h2 : ∀ (a b u v : Str), '_' ∉ a → '_' ∉ b → a ++ '_' :: u = b ++ '_' :: v → a = b ∧ u = v := by
    intro a
    induction a with
    | nil =>
      intro b u v _ hb e
      cases b with
      | nil => simpa using e
      | cons x b =>
        simp only [List.nil_append, List.cons_append, List.cons.injEq] at e
        exact absurd (e.1 ▸ List.mem_cons_self) hb
    | cons y a ih =>
      intro b u v ha hb e
      cases b with
      | nil =>
        simp only [List.nil_append, List.cons_append, List.cons.injEq] at e
        exact absurd (e.1 ▸ List.mem_cons_self) ha
      | cons x b =>
        simp only [List.cons_append, List.cons.injEq] at e
        obtain ⟨e1, e2⟩ := ih b u v (fun m => ha (List.mem_cons_of_mem _ m)) (fun m => hb (List.mem_cons_of_mem _ m)) e.2
        exact ⟨by rw [e.1, e1], e2⟩
  obtain ⟨e1, e2⟩ := h2 _ _ _ _ (by simpa using key c) (by simpa using key c') h'
  exact ⟨List.reverse_injective e2, Lazy.num_inj (List.reverse_injective e1)⟩

theorem ones_fresh (ts : List Str) (d : Dict) : ∀ x ∈ ones d ts, Fresh d x := by
  induction ts generalizing d with
  | nil => simp [ones]
  | cons t ts ih =>
    intro x hx
    simp only [ones, List.mem_cons] at hx
    rcases hx with rfl | hx
    · refine ⟨t, _, rfl, fun c' hc' => ?_⟩
      simp [hc']
    · obtain ⟨u, c, rfl, hc⟩ := ih _ x hx
      refine ⟨u, c, rfl, fun c' hc' => ?_⟩
      simp only [one, lookup_set] at hc
      by_cases hu : u = t
      · subst hu
        have := hc _ (if_pos rfl)
        simp only [hc'] at this
        exact Nat.lt_of_succ_lt this
      · exact hc c' (by rw [if_neg hu]; exact hc')

theorem ones_nodup (ts : List Str) (d : Dict) : (ones d ts).Nodup := by
  induction ts generalizing d with
  | nil => simp [ones]
  | cons t ts ih =>
    simp only [ones, List.nodup_cons]
    refine ⟨fun hm => ?_, ih _⟩
    obtain ⟨u, c, e, hc⟩ := ones_fresh ts _ _ hm
    obtain ⟨rfl, e2⟩ := name_inj e
    have := hc _ (by simp only [one, lookup_set, if_true]; exact rfl)
    exact absurd e2 (by omega)

/-- **C33**: whatever base names and numbers of names the code generators of a process ask for, in any order, the
names they get are pairwise distinct. -/
theorem C33_names (rs : List Req) : ((run [] rs).flatMap names).Nodup := by
  rw [run_eq]
  exact ones_nodup _ _

/-- A call for one name answers with one name, and a call for a list answers with that number of names. -/
theorem C33_count (rs : List Req) (k : Nat) (r : Req) (hr : rs[k]? = some r) :
    ∃ a, (run [] rs)[k]? = some a ∧ (names a).length = (if r.num > 1 ∨ r.asList = true then r.num else 1) ∧
      ∀ x ∈ names a, r.template ++ ['_'] <+: x := by
  suffices h : ∀ d, ∃ a, (run d rs)[k]? = some a ∧ (names a).length = (if r.num > 1 ∨ r.asList = true then r.num else 1) ∧
      ∀ x ∈ names a, r.template ++ ['_'] <+: x from h []
  induction rs generalizing k with
  | nil => simp at hr
  | cons q rs ih =>
    intro d
    cases k with
    | succ k =>
      obtain ⟨a, h1, h2⟩ := ih k (by simpa using hr) (call d q).2
      exact ⟨a, by simpa [run] using h1, h2⟩
    | zero =>
      obtain rfl : q = r := by simpa using hr
      refine ⟨(call d q).1, by simp [run], ?_⟩
      have hpre : ∀ (n : Nat) (d : Dict), (ones d (List.replicate n q.template)).length = n ∧
          ∀ x ∈ ones d (List.replicate n q.template), q.template ++ ['_'] <+: x := by
        intro n
        induction n with
        | zero => simp [ones]
        | succ n ihn =>
          intro d
          obtain ⟨h1, h2⟩ := ihn (one d q.template).2
          simp only [List.replicate_succ, ones, List.length_cons, h1, true_and, List.mem_cons]
          rintro x (rfl | hx)
          · exact ⟨_, by simp only [one, List.append_assoc, List.singleton_append]; rfl⟩
          · exact h2 x hx
      unfold call
      by_cases h : q.num > 1 ∨ q.asList = true
      · rw [if_pos h, if_pos h, many_eq]
        exact hpre q.num d
      · rw [if_neg h, if_neg h]
        refine ⟨rfl, ?_⟩
        rintro x hx
        obtain rfl : x = _ := by simpa [names] using hx
        exact ⟨_, by simp only [one, List.append_assoc, List.singleton_append]; rfl⟩

/-- A generated name ends with a digit. The names written by hand in the generated code (`i`, `j`, `nx`, `ny`, `xi`,
`yj`, `yjrel`, `param_loc`, `acc`, `fout`, `out`, `jstart`, `indices_i`, ...) do not: they never clash with
generated ones. -/
theorem C33_reserved (rs : List Req) {x y : Str} (hx : x ∈ (run [] rs).flatMap names)
    (hy : ∀ c ∈ y.getLast?, ¬ c.isDigit) : x ≠ y := by
  rw [run_eq] at hx
  obtain ⟨t, c, rfl, _⟩ := ones_fresh _ _ _ hx
  rintro rfl
  have hne : num c ≠ [] := Lazy.num_ne_nil c
  have : (t ++ '_' :: num c).getLast? = some ((num c).getLast hne) := by
    rw [List.getLast?_append_cons, List.getLast?_eq_getLast_of_ne_nil (by simp), List.getLast_cons hne]
  exact hy _ (by rw [this]; rfl) (Lazy.isDigit_num (List.getLast_mem hne))

/-- **Negation of C33 for arrays**: two arrays built without a name get the same name, because the default value is
computed once. `GpuReduc1D_chunks.py:49` builds its array that way, twice for each routine. -/
theorem not_C33_arrays (default : Str) : ¬ [arrayName default none, arrayName default none].Nodup := by
  simp

/-- Base names that look like numbered names do not clash either: `x_1` is the second name for the base `x`, and
`x_1_0` the first one for the base `x_1`. -/
example : (run [] [⟨['x'], 2, false⟩, ⟨['x', '_', '1'], 1, false⟩, ⟨['x'], 1, false⟩]).flatMap names =
    [['x', '_', '0'], ['x', '_', '1'], ['x', '_', '1', '_', '0'], ['x', '_', '2']] := by
  decide +kernel

end Verif.Names
