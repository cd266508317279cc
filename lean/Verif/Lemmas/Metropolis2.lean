import Verif.Lemmas.Metropolis
import Verif.Lemmas.Rand2

namespace Verif.Lemmas
open Verif Verif.Model Verif.Spec Prog

variable {σ A B ι : Type}

theorem getD_cons_length (s : σ) (t : List σ) : (s :: t).getD t.length s = t.getLastD s := by
  induction t generalizing s with
  | nil => rfl
  | cons a t ih =>
    rw [List.getLastD_cons, ← ih a, List.length_cons, List.getD_cons_succ,
      List.getD_eq_getElem _ _ (by simp), List.getD_eq_getElem _ _ (by simp)]

theorem getLastD_append (s : σ) (t t' : List σ) : (t ++ t').getLastD s = t'.getLastD (t.getLastD s) := by
  induction t generalizing s with
  | nil => rfl
  | cons a t ih => rw [List.cons_append, List.getLastD_cons, List.getLastD_cons, ih]

/-- A loop that records the state after each block of steps. -/
theorem record_visits (step : ι → σ → Prog σ) (L : List ι) (g1 : σ → A) (g2 : σ → B) (m : ℕ) (s : σ) :
    forEach (fun (_ : ℕ) acc => (forEach step L acc.1).bind fun st' =>
        .ret (st', acc.2.1 ++ [g1 st'], acc.2.2 ++ [g2 st'])) (List.range m) (s, [], []) =
      (visits step ((List.range m).flatMap fun _ => L) s).bind fun tr =>
        .ret (tr.getLastD s, (List.range m).map (fun b => g1 ((s :: tr).getD ((b + 1) * L.length) s)),
          (List.range m).map fun b => g2 ((s :: tr).getD ((b + 1) * L.length) s)) := by
  induction m with
  | zero => rfl
  | succ m ih =>
    rw [List.range_succ, forEach_append, ih, List.flatMap_append, visits_append]
    simp only [bind_assoc, Prog.bind, List.flatMap_cons, List.flatMap_nil, List.append_nil, forEach,
      forEach_visits step L]
    have hlen : ((List.range m).flatMap fun _ => L).length = m * L.length := by simp
    refine bind_congr_leaves (leaves_visits step _ s) fun tr htr => ?_
    rw [hlen] at htr
    refine bind_congr_leaves (leaves_visits step L _) fun tr' htr' => ?_
    have hl : (tr ++ tr').length = (m + 1) * L.length := by rw [List.length_append, htr, htr']; ring
    have h1 : ∀ b ∈ List.range m, (s :: tr).getD ((b + 1) * L.length) s =
        (s :: (tr ++ tr')).getD ((b + 1) * L.length) s := by
      intro b hb
      have hb := List.mem_range.1 hb
      have : (b + 1) * L.length ≤ m * L.length := Nat.mul_le_mul_right _ hb
      rw [← List.cons_append, List.getD_append _ _ _ _ (by simp [htr]; omega)]
    have h2 : (s :: (tr ++ tr')).getD ((m + 1) * L.length) s = tr'.getLastD (tr.getLastD s) := by
      rw [← hl, getD_cons_length, getLastD_append]
    rw [getLastD_append, List.map_append, List.map_append, List.map_cons, List.map_nil, List.map_cons,
      List.map_nil, h2, List.map_congr_left fun b hb => by rw [h1 b hb],
      List.map_congr_left (f := fun b => g2 _) fun b hb => by rw [h1 b hb]]

/-- `hist` with entries from position `c` on replaced. -/
def overwrite (hist : List A) (c : ℕ) : List A → List A
  | [] => hist
  | e :: es => overwrite (hist.set c e) (c + 1) es

theorem overwrite_append (hist : List A) (c : ℕ) (a b : List A) :
    overwrite hist c (a ++ b) = overwrite (overwrite hist c a) (c + a.length) b := by
  induction a generalizing hist c with
  | nil => rfl
  | cons x a ih =>
    simp only [List.cons_append, overwrite, ih, List.length_cons]
    congr 1
    omega

theorem overwrite_eq (hist : List A) (c : ℕ) (es : List A) (h : c + es.length ≤ hist.length) :
    overwrite hist c es = hist.take c ++ es ++ hist.drop (c + es.length) := by
  induction es generalizing hist c with
  | nil => simp [overwrite]
  | cons x a ih =>
    simp only [List.length_cons] at h
    rw [overwrite, ih _ _ (by simp; omega), List.take_succ_eq_append_getElem (by simp; omega)]
    simp only [List.getElem_set_self, List.length_cons]
    rw [List.take_set_of_le (by omega), List.drop_set_of_lt (by omega)]
    simp only [List.append_assoc, List.cons_append, List.nil_append]
    congr 3
    congr 1
    omega

theorem history_visits (step : ι → σ → Prog σ) (e : σ → A) (l : List ι) : ∀ (s : σ) (hist : List A) (c : ℕ),
    forEach (fun j (st : σ × List A × ℕ) => (step j st.1).bind fun st' =>
        .ret (st', st.2.1.set st.2.2 (e st'), st.2.2 + 1)) l (s, hist, c) =
      (visits step l s).bind fun tr =>
        .ret (tr.getLastD s, overwrite hist c (tr.map e), c + l.length) := by
  induction l with
  | nil => exact fun s hist c => rfl
  | cons i l ih =>
    intro s hist c
    simp only [forEach, visits, bind_assoc, Prog.bind, ih]
    congr 1
    funext s'
    congr 1
    funext tr
    rw [List.getLastD_cons, List.map_cons, overwrite, List.length_cons]
    congr 3
    omega

/-- The same with the history of all steps. -/
theorem recordHistory_visits (step : ι → σ → Prog σ) (L : List ι) (e : σ → ℝ) (g1 : σ → A) (g2 : σ → B)
    (m : ℕ) (s : σ) (hist : List ℝ) :
    forEach (fun (_ : ℕ) (acc : (σ × List ℝ × ℕ) × List A × List B) =>
        (forEach (fun j (st : σ × List ℝ × ℕ) => (step j st.1).bind fun st' =>
          .ret (st', st.2.1.set st.2.2 (e st'), st.2.2 + 1)) L acc.1).bind fun st' =>
        .ret (st', acc.2.1 ++ [g1 st'.1], acc.2.2 ++ [g2 st'.1])) (List.range m) ((s, hist, 0), [], []) =
      (visits step ((List.range m).flatMap fun _ => L) s).bind fun tr =>
        .ret ((tr.getLastD s, overwrite hist 0 (tr.map e), m * L.length),
          (List.range m).map (fun b => g1 ((s :: tr).getD ((b + 1) * L.length) s)),
          (List.range m).map fun b => g2 ((s :: tr).getD ((b + 1) * L.length) s)) := by
  induction m with
  | zero => simp [visits, Prog.bind, forEach, overwrite]
  | succ m ih =>
    rw [List.range_succ, forEach_append, ih, List.flatMap_append, visits_append]
    simp only [bind_assoc, Prog.bind, List.flatMap_cons, List.flatMap_nil, List.append_nil, forEach,
      history_visits step e L]
    have hlen : ((List.range m).flatMap fun _ => L).length = m * L.length := by simp
    refine bind_congr_leaves (leaves_visits step _ s) fun tr htr => ?_
    rw [hlen] at htr
    refine bind_congr_leaves (leaves_visits step L _) fun tr' htr' => ?_
    have hl : (tr ++ tr').length = (m + 1) * L.length := by rw [List.length_append, htr, htr']; ring
    have h1 : ∀ b ∈ List.range m, (s :: tr).getD ((b + 1) * L.length) s =
        (s :: (tr ++ tr')).getD ((b + 1) * L.length) s := by
      intro b hb
      have hb := List.mem_range.1 hb
      have : (b + 1) * L.length ≤ m * L.length := Nat.mul_le_mul_right _ hb
      rw [← List.cons_append, List.getD_append _ _ _ _ (by simp [htr]; omega)]
    have h2 : (s :: (tr ++ tr')).getD ((m + 1) * L.length) s = tr'.getLastD (tr.getLastD s) := by
      rw [← hl, getD_cons_length, getLastD_append]
    have e1 : (List.range m).map (fun b => g1 ((s :: tr).getD ((b + 1) * L.length) s)) =
        (List.range m).map fun b => g1 ((s :: (tr ++ tr')).getD ((b + 1) * L.length) s) :=
      List.map_congr_left fun b hb => by rw [h1 b hb]
    have e2 : (List.range m).map (fun b => g2 ((s :: tr).getD ((b + 1) * L.length) s)) =
        (List.range m).map fun b => g2 ((s :: (tr ++ tr')).getD ((b + 1) * L.length) s) :=
      List.map_congr_left fun b hb => by rw [h1 b hb]
    rw [getLastD_append, List.map_append, List.map_append, List.map_append, List.map_cons, List.map_nil,
      List.map_cons, List.map_nil, h2, e1, e2,
      overwrite_append, List.length_map, htr, zero_add, Nat.succ_mul m]

/-- The state after `N` of the steps. -/
theorem expectation_visits_getD {I : σ → Prop} (step : ι → σ → Prog σ) (l : List ι)
    (h : ∀ i ∈ l, ∀ s, I s → Returns (step i s) I) (s : σ) (hs : I s) (N : ℕ) (hN : N ≤ l.length)
    (g : σ → ℝ) :
    expectation (fun tr => g ((s :: tr).getD N s)) (visits step l s) =
      expectation g (forEach step (l.take N) s) := by
  conv_lhs => rw [← List.take_append_drop N l]
  rw [visits_append, expectation_bind, forEach_visits, expectation_bind]
  simp only [expectation_ret]
  refine expectation_congr _ (returns_visits (I := I) step (l.take N)
    (fun i hi => h i (List.mem_of_mem_take hi)) s hs) fun tr htr => ?_
  have hl : tr.length = N := by rw [htr.1, List.length_take, min_eq_left hN]
  have hI : I (tr.getLastD s) := by
    rcases List.eq_nil_or_concat tr with rfl | ⟨t, x, rfl⟩
    · exact hs
    · simp only [List.concat_eq_append] at htr ⊢
      rw [List.getLastD_concat]
      exact htr.2 x (by simp)
  refine expectation_certain _ (returns_bind (returns_visits (I := I) step (l.drop N)
    (fun i hi => h i (List.mem_of_mem_drop hi)) _ hI) fun tr' _ => returns_ret ?_)
  rw [← List.cons_append, List.getD_append _ _ _ _ (by simp [hl]), ← hl, getD_cons_length]

section
variable {S : List (List ℤ)} {w calcE : List ℤ → ℝ} {n : ℕ} {move : Move} (hm : GoodMove S w calcE n move)
  (hn : 0 < n)

theorem metroRecord_eq (systematic : Bool) (m k : ℕ) (st : List ℤ × ℝ) :
    metroRecord move n systematic m k st =
      (visits (metroIter move n systematic) ((List.range m).flatMap fun _ => List.range k) st).bind fun tr =>
        .ret (tr.getLastD st, (List.range m).map (fun b => ((st :: tr).getD ((b + 1) * k) st).1),
          (List.range m).map fun b => ((st :: tr).getD ((b + 1) * k) st).2) := by
  have := record_visits (metroIter move n systematic) (List.range k) Prod.fst Prod.snd m st
  rw [List.length_range] at this
  exact this

theorem metroRecordHistory_eq (systematic : Bool) (m k : ℕ) (st : List ℤ × ℝ) :
    metroRecordHistory move n systematic m k st =
      (visits (metroIter move n systematic) ((List.range m).flatMap fun _ => List.range k) st).bind fun tr =>
        .ret ((tr.getLastD st, tr.map Prod.snd ++ [0], m * k),
          (List.range m).map (fun b => ((st :: tr).getD ((b + 1) * k) st).1),
          (List.range m).map fun b => ((st :: tr).getD ((b + 1) * k) st).2) := by
  have := recordHistory_visits (metroIter move n systematic) (List.range k) Prod.snd Prod.fst Prod.snd m st
    (List.replicate (m * k + 1) 0)
  rw [List.length_range] at this
  refine Eq.trans this (bind_congr_leaves (leaves_visits _ _ _) fun tr htr => ?_)
  have hl : tr.length = m * k := by rw [htr]; simp
  rw [overwrite_eq _ _ _ (by simp [hl])]
  simp [hl]

include hm hn

theorem returns_steps (systematic : Bool) (st : List ℤ × ℝ) (h1 : st.1 ∈ S) (h2 : st.2 = calcE st.1) (l : List ℕ) :
    Returns (visits (metroIter move n systematic) l st) fun tr =>
      tr.length = l.length ∧ ∀ x ∈ tr, x.1 ∈ S ∧ x.2 = calcE x.1 :=
  returns_visits (I := fun r : List ℤ × ℝ => r.1 ∈ S ∧ r.2 = calcE r.1) _ l
    (fun j _ s hs => returns_metroIter hm hn systematic j s hs.1 hs.2) st ⟨h1, h2⟩

omit hm hn in
theorem mem_visited {st : List ℤ × ℝ} (h1 : st.1 ∈ S) (h2 : st.2 = calcE st.1) {tr : List (List ℤ × ℝ)}
    (htr : ∀ x ∈ tr, x.1 ∈ S ∧ x.2 = calcE x.1) (N : ℕ) :
    ((st :: tr).getD N st).1 ∈ S ∧ ((st :: tr).getD N st).2 = calcE ((st :: tr).getD N st).1 := by
  rcases Nat.lt_or_ge N (st :: tr).length with h | h
  · rw [List.getD_eq_getElem _ _ h]
    rcases List.mem_cons.1 (List.getElem_mem h) with e | e
    · rw [e]; exact ⟨h1, h2⟩
    · exact htr _ e
  · rw [List.getD_eq_default _ _ h]; exact ⟨h1, h2⟩

/-- What is recorded: the right number of states, with their energies. -/
theorem returns_metroRecord (systematic : Bool) (m k : ℕ) (st : List ℤ × ℝ) (h1 : st.1 ∈ S)
    (h2 : st.2 = calcE st.1) :
    Returns (metroRecord move n systematic m k st) fun r =>
      (r.1.1 ∈ S ∧ r.1.2 = calcE r.1.1) ∧ r.2.1.length = m ∧ (∀ x ∈ r.2.1, x ∈ S) ∧
        r.2.2 = r.2.1.map calcE := by
  rw [metroRecord_eq]
  refine returns_bind (returns_steps hm hn systematic st h1 h2 _) fun tr htr => returns_ret ?_
  have hv := mem_visited h1 h2 htr.2
  refine ⟨?_, by simp, ?_, ?_⟩
  · have := hv tr.length
    rwa [getD_cons_length] at this
  · intro x hx
    obtain ⟨b, -, rfl⟩ := List.mem_map.1 hx
    exact (hv _).1
  · rw [List.map_map]
    exact List.map_congr_left fun b _ => (hv _).2

/-- Every recorded state has the distribution that the moves keep. -/
theorem keeps_metroRecord (systematic : Bool) (m k b : ℕ) (hb : b < m) (g : List ℤ → ℝ → ℝ) :
    (S.map fun s => w s * expectation (fun r => g (r.2.1.getD b []) (r.2.2.getD b 0))
      (metroRecord move n systematic m k (s, calcE s))).sum =
      (S.map fun s => w s * g s (calcE s)).sum := by
  rw [← (keeps_forEach (w := w) (((List.range m).flatMap fun _ => List.range k).take ((b + 1) * k))
    fun j _ => keeps_metroIter hm hn systematic j) fun st => g st.1 st.2]
  refine list_sum_congr fun s hs => ?_
  rw [metroRecord_eq, expectation_bind]
  simp only [expectation_ret, getD_map_range _ _ _ hb]
  rw [expectation_visits_getD (I := fun r : List ℤ × ℝ => r.1 ∈ S ∧ r.2 = calcE r.1)
    (metroIter move n systematic) _ (fun j _ s hs => returns_metroIter hm hn systematic j s hs.1 hs.2)
    (s, calcE s) ⟨hs, rfl⟩ ((b + 1) * k) ?_ fun st => g st.1 st.2]
  simpa using Nat.mul_le_mul_right k hb

end

end Verif.Lemmas
