/-
Independent draws from a finite set.
-/
import Verif.Lemmas.Metropolis3
import Verif.Lemmas.MchOneSpin

namespace Verif.Lemmas
open Verif Verif.Model Verif.Spec Prog

theorem expectation_words {α ι : Type} (D : Prog α) (A : List α) (hD : ∀ g : α → ℝ, expectation g D = (A.map g).sum / A.length)
    (l : List ι) (f : List α → ℝ) : expectation f (Prog.mapEach (fun _ => D) l) =
      ((words A l.length).map f).sum / (A.length : ℝ) ^ l.length := by
  induction l generalizing f with
  | nil => simp [Prog.mapEach, expectation_ret, words]
  | cons i l ih =>
    rw [Prog.mapEach, expectation_bind, hD]
    have e : (fun a => expectation f ((Prog.mapEach (fun _ => D) l).bind fun as => .ret (a :: as))) =
        fun a => (((words A l.length).map fun as => f (a :: as)).sum) * (1 / (A.length : ℝ) ^ l.length) := by
      funext a
      rw [expectation_bind, ih, mul_one_div]
      rfl
    rw [e, List.sum_map_mul_right, List.length_cons, words, List.map_flatMap, sum_flatMap, pow_succ]
    simp only [List.map_map, Function.comp_def]
    rw [mul_one_div, div_div]

/-- Every state of the list is equally likely. -/
def UniformOn {α : Type} (S : List α) (p : Prog α) : Prop := ∀ g : α → ℝ, expectation g p = (S.map g).sum / S.length

theorem uniformOn_words {ι : Type} {A : List ℤ} {D : Prog ℤ} (hD : UniformOn A D) (l : List ι) :
    UniformOn (words A l.length) (Prog.mapEach (fun _ => D) l) := fun g => by
  rw [expectation_words D A hD l g, length_words]
  push_cast
  rfl

theorem uniformOn_coin : UniformOn [1, -1] ((Prog.randint 2).bind fun b => .ret (if b = 0 then (-1 : ℤ) else 1)) := fun g => by
  rw [expectation_randint _ _ (by norm_num)]
  simp [Finset.sum_range_succ, expectation_ret, add_comm]

theorem uniformOn_coin' : UniformOn [1, -1] ((Prog.randint 2).bind fun b => .ret (if b = 0 then (1 : ℤ) else -1)) := fun g => by
  rw [expectation_randint _ _ (by norm_num)]
  simp [Finset.sum_range_succ, expectation_ret]

theorem uniformOn_die : UniformOn [0, 1, 2] ((Prog.randint 3).bind fun b => .ret (b : ℤ)) := fun g => by
  rw [expectation_randint _ _ (by norm_num)]
  simp [Finset.sum_range_succ, expectation_ret, add_assoc]

theorem uniformOn_cppIsingInit (n : ℕ) : UniformOn (words [1, -1] n) (cppIsingInit n) := by
  have := uniformOn_words uniformOn_coin' (List.range n)
  rwa [List.length_range] at this

theorem uniformOn_cppPottsInit (n : ℕ) : UniformOn (words [0, 1, 2] n) (cppPottsInit n) := by
  have := uniformOn_words uniformOn_die (List.range n)
  rwa [List.length_range] at this

/-- Row `c` of the states drawn by `random_sample`. -/
theorem uniformOn_randomSample (n k c : ℕ) (hc : c < k) (g : List ℤ → ℝ) :
    expectation (fun x => g (x.getD c [])) (randomSample n k) =
      ((words [1, -1] n).map g).sum / ((words [(1 : ℤ), -1] n).length : ℝ) := by
  have := uniformOn_words uniformOn_coin (List.range n)
  rw [List.length_range] at this
  refine Eq.trans ?_ (this g)
  exact expectation_mapEach_getD _ (fun s => s ∈ words [1, -1] n) [] g (List.range k) (fun i _ =>
    returns_randomRow [1, -1] (fun b => if b = 0 then -1 else 1) 2 (by norm_num)
      fun b _ => by by_cases h : b = 0 <;> simp [h]) c (by simpa using hc)

theorem uniformOn_randomSamplePotts3 (n k c : ℕ) (hc : c < k) (g : List ℤ → ℝ) :
    expectation (fun x => g (x.getD c [])) (randomSamplePotts3 n k) =
      ((words [0, 1, 2] n).map g).sum / ((words [(0 : ℤ), 1, 2] n).length : ℝ) := by
  have := uniformOn_words uniformOn_die (List.range n)
  rw [List.length_range] at this
  refine Eq.trans ?_ (this g)
  exact expectation_mapEach_getD _ (fun s => s ∈ words [0, 1, 2] n) [] g (List.range k) (fun i _ =>
    returns_randomRow [0, 1, 2] (fun b => (b : ℤ)) 3 (by norm_num)
      fun b hb => by
        simp only [List.mem_cons, List.not_mem_nil, or_false]
        omega) c (by simpa using hc)

end Verif.Lemmas
