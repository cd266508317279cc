/-
Random steps that keep a distribution on a finite list of states of any type.
-/
import Verif.Lemmas.Metropolis3

namespace Verif.Lemmas
open Verif Verif.Model Verif.Spec Prog

section
variable {α γ ι : Type}

/-- A state with weights `w` goes to `out` of a state with the same weights. -/
def KeepsTo (S : List α) (w : α → ℝ) (k : α → Prog γ) (out : α → γ) : Prop :=
  ∀ F : γ → ℝ, (S.map fun s => w s * expectation F (k s)).sum = (S.map fun s => w s * F (out s)).sum

/-- The step keeps the weights `w`. -/
def KeepsG (S : List α) (w : α → ℝ) (step : α → Prog α) : Prop :=
  ∀ f : α → ℝ, (S.map fun s => w s * expectation f (step s)).sum = (S.map fun s => w s * f s).sum

theorem keepsG_ret (S : List α) (w : α → ℝ) : KeepsG S w .ret := fun _ => rfl

theorem keepsG_bind {S : List α} {w : α → ℝ} {p q : α → Prog α} (hp : KeepsG S w p) (hq : KeepsG S w q) :
    KeepsG S w fun s => (p s).bind q := by
  intro f
  simp only [expectation_bind]
  rw [hp fun a => expectation f (q a), hq f]

theorem keepsG_forEach {S : List α} {w : α → ℝ} {body : ι → α → Prog α} (l : List ι)
    (h : ∀ i ∈ l, KeepsG S w (body i)) : KeepsG S w (forEach body l) := by
  induction l with
  | nil => exact keepsG_ret S w
  | cons i l ih => exact keepsG_bind (h i (by simp)) (ih fun j hj => h j (by simp [hj]))

theorem keepsG_congr {S : List α} {w w' : α → ℝ} {p q : α → Prog α} (h : ∀ s ∈ S, p s = q s)
    (hw : ∀ s ∈ S, w s = w' s) (hq : KeepsG S w' q) : KeepsG S w p := by
  intro f
  rw [list_sum_congr (g := fun s => w' s * expectation f (q s)) fun s hs => by rw [h s hs, hw s hs], hq f]
  exact list_sum_congr fun s hs => by rw [hw s hs]

/-- A choice between staying and going to `g s` that satisfies detailed balance. -/
theorem keepsG_accept [DecidableEq α] {S : List α} (hS : S.Nodup) {w a : α → ℝ} (g : α → α) (hg : ∀ s ∈ S, g s ∈ S)
    (hgg : ∀ s ∈ S, g (g s) = s) (hb : ∀ s ∈ S, w s * a s = w (g s) * a (g s)) {step : α → Prog α}
    (hstep : ∀ s ∈ S, ∀ f : α → ℝ, expectation f (step s) = a s * f (g s) + (1 - a s) * f s) :
    KeepsG S w step := by
  intro f
  have h1 : (S.map fun s => w s * expectation f (step s)).sum =
      (S.map fun s => w (g s) * a (g s) * f (g s)).sum + (S.map fun s => w s * (1 - a s) * f s).sum := by
    rw [← list_sum_add]
    refine list_sum_congr fun s hs => ?_
    rw [hstep s hs, mul_add, ← mul_assoc, hb s hs]
    ring
  rw [h1, sum_invol S hS g hg hgg fun s => w s * a s * f s, ← list_sum_add]
  exact list_sum_congr fun s _ => by ring

/-- Independent steps of several components. -/
theorem keepsTo_mapEach {S : List α} {w : ι → α → ℝ} {k : ι → α → Prog γ} {out : ι → α → γ} (items : List ι)
    (h : ∀ i ∈ items, KeepsTo S (w i) (k i) (out i)) :
    KeepsTo (words S items.length) (fun c => (List.zipWith w items c).prod)
      (fun c => mapEach (fun p : ι × α => k p.1 p.2) (items.zip c)) fun c => List.zipWith out items c := by
  induction items with
  | nil => intro F; rfl
  | cons i items ih =>
    intro F
    rw [List.length_cons, words, List.map_flatMap, sum_flatMap, List.map_flatMap, sum_flatMap]
    simp only [List.map_map, Function.comp_def, List.zipWith_cons_cons, List.prod_cons, List.zip_cons_cons, mapEach,
      expectation_bind, expectation_ret]
    have e1 : (S.map fun s => ((words S items.length).map fun c => w i s * (List.zipWith w items c).prod *
        expectation (fun a => expectation (fun as => F (a :: as))
          (mapEach (fun p : ι × α => k p.1 p.2) (items.zip c))) (k i s)).sum).sum =
        ((words S items.length).map fun c => (List.zipWith w items c).prod * (S.map fun s => w i s *
          expectation (fun as => F (out i s :: as)) (mapEach (fun p : ι × α => k p.1 p.2) (items.zip c))).sum).sum := by
      rw [list_sum_comm]
      refine list_sum_congr fun c _ => ?_
      rw [← h i (by simp) fun a => expectation (fun as => F (a :: as))
        (mapEach (fun p : ι × α => k p.1 p.2) (items.zip c)), ← list_sum_mul_left]
      exact list_sum_congr fun s _ => by ring
    rw [e1]
    have e2 : ∀ s ∈ S, ((words S items.length).map fun c => (List.zipWith w items c).prod *
        expectation (fun as => F (out i s :: as)) (mapEach (fun p : ι × α => k p.1 p.2) (items.zip c))).sum =
        ((words S items.length).map fun c => (List.zipWith w items c).prod * F (out i s :: List.zipWith out items c)).sum :=
      fun s _ => ih (fun j hj => h j (by simp [hj])) fun as => F (out i s :: as)
    have e3 : ((words S items.length).map fun c => (List.zipWith w items c).prod * (S.map fun s => w i s *
          expectation (fun as => F (out i s :: as)) (mapEach (fun p : ι × α => k p.1 p.2) (items.zip c))).sum).sum =
        (S.map fun s => w i s * ((words S items.length).map fun c => (List.zipWith w items c).prod *
        expectation (fun as => F (out i s :: as)) (mapEach (fun p : ι × α => k p.1 p.2) (items.zip c))).sum).sum := by
      simp only [← list_sum_mul_left]
      rw [list_sum_comm]
      exact list_sum_congr fun s _ => list_sum_congr fun c _ => by ring
    rw [e3]
    refine list_sum_congr fun s hs => ?_
    rw [e2 s hs, ← list_sum_mul_left]
    exact list_sum_congr fun c _ => by ring

end

/-- The weights of independent components are those of the sum of the energies. -/
theorem partition_product {α : Type*} (S : List α) (Es : List (α → ℝ)) :
    partition (words S Es.length) (fun c => (List.zipWith (fun E s => E s) Es c).sum) =
      (Es.map (partition S)).prod := by
  induction Es with
  | nil => simp [partition, words]
  | cons E Es ih =>
    unfold partition at ih ⊢
    rw [List.length_cons, words, List.map_flatMap, sum_flatMap, List.map_cons, List.prod_cons, ← ih,
      ← list_sum_mul_right]
    refine list_sum_congr fun s _ => ?_
    rw [List.map_map, ← list_sum_mul_left]
    refine list_sum_congr fun c _ => ?_
    simp only [Function.comp, List.zipWith_cons_cons, List.sum_cons]
    rw [← Real.exp_add]
    congr 1
    ring

theorem boltzmann_product {α : Type*} (S : List α) (Es : List (α → ℝ)) (c : List α) (hc : c.length = Es.length) :
    boltzmann (words S Es.length) (fun c => (List.zipWith (fun E s => E s) Es c).sum) c =
      (List.zipWith (fun E s => boltzmann S E s) Es c).prod := by
  have h1 : ∀ (Es : List (α → ℝ)) (c : List α), c.length = Es.length →
      (List.zipWith (fun E s => boltzmann S E s) Es c).prod =
        Real.exp (-(List.zipWith (fun E s => E s) Es c).sum) / (Es.map (partition S)).prod := by
    intro Es
    induction Es with
    | nil => intro c hc; simp
    | cons E Es ih =>
      intro c hc
      match c, hc with
      | s :: c, hc =>
        simp only [List.zipWith_cons_cons, List.prod_cons, List.map_cons, List.sum_cons]
        rw [ih c (by simpa using hc), boltzmann, div_mul_div_comm, ← Real.exp_add]
        congr 2
        ring
  rw [h1 Es c hc, boltzmann, partition_product]

end Verif.Lemmas
