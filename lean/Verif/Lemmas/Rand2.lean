import Verif.Lemmas.Rand

namespace Verif.Lemmas
open Verif Verif.Model Verif.Spec Prog

variable {α β σ τ ι : Type}

/-- Every value that the tree can return, even for draws outside their ranges, has the property `Q`. -/
def Leaves (Q : α → Prop) : Prog α → Prop
  | .ret a => Q a
  | .fail _ => True
  | .unif _ k => ∀ i, Leaves Q (k i)
  | .rand k => ∀ u, Leaves Q (k u)

theorem bind_congr_leaves {Q : α → Prop} {p : Prog α} (hp : Leaves Q p) {F G : α → Prog β}
    (h : ∀ a, Q a → F a = G a) : p.bind F = p.bind G := by
  induction p with
  | ret a => exact h a hp
  | fail e => rfl
  | unif n k ih => simp only [Prog.bind]; congr 1; funext i; exact ih i (hp i)
  | rand k ih => simp only [Prog.bind]; congr 1; funext u; exact ih u (hp u)

theorem leaves_bind {Q : α → Prop} {R : β → Prop} {p : Prog α} {q : α → Prog β} (hp : Leaves Q p)
    (hq : ∀ a, Q a → Leaves R (q a)) : Leaves R (p.bind q) := by
  induction p with
  | ret a => exact hq a hp
  | fail e => trivial
  | unif n k ih => exact fun i => ih i (hp i)
  | rand k ih => exact fun u => ih u (hp u)

theorem leaves_true (p : Prog α) : Leaves (fun _ => True) p := by
  induction p with
  | ret a => trivial
  | fail e => trivial
  | unif n k ih => exact fun i => ih i
  | rand k ih => exact fun u => ih u

theorem leaves_mono {Q R : α → Prop} (h : ∀ a, Q a → R a) {p : Prog α} (hp : Leaves Q p) : Leaves R p := by
  induction p with
  | ret a => exact h a hp
  | fail e => trivial
  | unif n k ih => exact fun i => ih i (hp i)
  | rand k ih => exact fun u => ih u (hp u)

/-- A program that returns nothing unexpected and never raises. -/
theorem returns_of_leaves {Q R : α → Prop} {p : Prog α} (hp : Leaves Q p) (hr : Returns p R) :
    Returns p fun a => Q a ∧ R a := by
  induction p with
  | ret a => obtain ⟨b, hb, h⟩ := hr; cases hb; exact ⟨_, rfl, hp, h⟩
  | fail e => obtain ⟨b, hb, h⟩ := hr; cases hb
  | unif n k ih => exact fun i hi => ih i (hp i) (hr i hi)
  | rand k ih => exact fun u h0 h1 => ih u (hp u) (hr u h0 h1)

theorem leaves_visits (step : ι → σ → Prog σ) (l : List ι) :
    ∀ s, Leaves (fun tr : List σ => tr.length = l.length) (visits step l s) := by
  induction l with
  | nil => exact fun s => rfl
  | cons i l ih =>
    intro s
    exact leaves_bind (leaves_true _) fun s' _ => leaves_bind (ih s') fun tr htr => by
      show (s' :: tr).length = _
      simp [htr]

theorem visits_append (step : ι → σ → Prog σ) (l l' : List ι) : ∀ s,
    visits step (l ++ l') s = (visits step l s).bind fun tr =>
      (visits step l' (tr.getLastD s)).bind fun tr' => .ret (tr ++ tr') := by
  induction l with
  | nil => intro s; simp only [List.nil_append, visits, Prog.bind, List.getLastD_nil]; rw [bind_ret]
  | cons i l ih =>
    intro s
    simp only [List.cons_append, visits, bind_assoc, Prog.bind, ih]
    congr 1
    funext s'
    congr 1
    funext tr
    rw [List.getLastD_cons]

theorem forEach_visits (step : ι → σ → Prog σ) (l : List ι) : ∀ s,
    forEach step l s = (visits step l s).bind fun tr => .ret (tr.getLastD s) := by
  induction l with
  | nil => exact fun s => rfl
  | cons i l ih =>
    intro s
    simp only [forEach, visits, bind_assoc, Prog.bind]
    congr 1
    funext s'
    rw [ih]
    congr 1
    funext tr
    rw [List.getLastD_cons]

theorem forEach_append (step : ι → σ → Prog σ) (l l' : List ι) : ∀ s,
    forEach step (l ++ l') s = (forEach step l s).bind (forEach step l') := by
  induction l with
  | nil => exact fun s => rfl
  | cons i l ih =>
    intro s
    simp only [List.cons_append, forEach, bind_assoc]
    congr 1
    funext s'
    exact ih s'

/-- Forgetting part of the state of a loop. -/
theorem forEach_proj (π : σ → τ) (body : ι → σ → Prog σ) (body' : ι → τ → Prog τ)
    (h : ∀ i s, (body i s).bind (fun x => .ret (π x)) = body' i (π s)) (l : List ι) : ∀ s,
    (forEach body l s).bind (fun x => .ret (π x)) = forEach body' l (π s) := by
  induction l with
  | nil => exact fun s => rfl
  | cons i l ih =>
    intro s
    simp only [forEach, bind_assoc, ih]
    rw [← h, bind_assoc]
    rfl

theorem leaves_forEach {I : σ → Prop} (step : ι → σ → Prog σ) (l : List ι)
    (h : ∀ i ∈ l, ∀ s, I s → Leaves I (step i s)) : ∀ s, I s → Leaves I (forEach step l s) := by
  induction l with
  | nil => exact fun s hs => hs
  | cons i l ih =>
    intro s hs
    exact leaves_bind (h i (by simp) s hs) (ih fun j hj => h j (by simp [hj]))

/-- The states visited keep an invariant of the steps. -/
theorem returns_visits {I : σ → Prop} (step : ι → σ → Prog σ) (l : List ι)
    (h : ∀ i ∈ l, ∀ s, I s → Returns (step i s) I) : ∀ s, I s →
      Returns (visits step l s) fun tr => tr.length = l.length ∧ ∀ x ∈ tr, I x := by
  induction l with
  | nil => exact fun s hs => returns_ret ⟨rfl, by simp⟩
  | cons i l ih =>
    intro s hs
    refine returns_bind (h i (by simp) s hs) fun s' hs' =>
      returns_bind (ih (fun j hj => h j (by simp [hj])) s' hs') fun tr htr => returns_ret ⟨by simp [htr.1], ?_⟩
    intro x hx
    rcases List.mem_cons.1 hx with rfl | hx
    · exact hs'
    · exact htr.2 x hx

end Verif.Lemmas
