/-
Lemmas on model objects and their samplers.
-/
import Verif.Spec.ModelEnergy
import Verif.Props.MixingCpp
import Verif.Lemmas.Helpers2

namespace Verif.Lemmas
open Verif Verif.Model Verif.Spec Verif.Props Prog

/-! ### programs that may raise -/

/-- Whatever numbers are drawn: if the program returns a value, it has the property `Q`. -/
def Sound {α : Type} (p : Prog α) (Q : α → Prop) : Prop := Always (fun r => ∀ a, r = .ok a → Q a) p

variable {α β ι : Type}

theorem sound_ret {a : α} {Q : α → Prop} (h : Q a) : Sound (.ret a) Q := fun _ e => by injection e with e; exact e ▸ h

theorem sound_fail {e : PyErr} {Q : α → Prop} : Sound (.fail e) Q := fun _ h => by cases h

theorem sound_of_returns {p : Prog α} {Q : α → Prop} (h : Returns p Q) : Sound p Q :=
  always_mono (fun _ ⟨a, e, ha⟩ b hb => by rw [e] at hb; injection hb with hb; exact hb ▸ ha) p h

theorem sound_mono {p : Prog α} {Q R : α → Prop} (h : ∀ a, Q a → R a) (hp : Sound p Q) : Sound p R :=
  always_mono (fun _ hr a e => h a (hr a e)) p hp

theorem sound_bind {p : Prog α} {q : α → Prog β} {Q : α → Prop} {R : β → Prop} (hp : Sound p Q)
    (hq : ∀ a, Q a → Sound (q a) R) : Sound (p.bind q) R := by
  induction p with
  | ret a => exact hq a (hp a rfl)
  | fail e => exact sound_fail
  | unif n k ih => exact fun i hi => ih i (hp i hi)
  | rand k ih => exact fun u h0 h1 => ih u (hp u h0 h1)

theorem sound_ofPy {x : Py α} {Q : α → Prop} (h : ∀ a, x = .ok a → Q a) : Sound (ofPy x) Q := by
  cases x with
  | ok a => exact sound_ret (h a rfl)
  | error e => exact sound_fail

theorem sound_forEach {σ : Type} {body : ι → σ → Prog σ} {I : σ → Prop} (l : List ι)
    (h : ∀ i ∈ l, ∀ s, I s → Sound (body i s) I) : ∀ s, I s → Sound (forEach body l s) I := by
  induction l with
  | nil => exact fun s hs => sound_ret hs
  | cons i l ih =>
    intro s hs
    exact sound_bind (h i (by simp) s hs) fun t ht => ih (fun j hj => h j (by simp [hj])) t ht

theorem sound_true (p : Prog α) : Sound p fun _ => True := by
  induction p with
  | ret a => exact fun _ _ => trivial
  | fail e => exact sound_fail
  | unif n k ih => exact fun i _ => ih i
  | rand k ih => exact fun u _ _ => ih u

theorem sound_run {σ : Type} {p : Prog α} {Q : α → Prop} (h : Sound p Q) (g : Gen σ) (hg : g.Valid) (seed : σ) (a : α)
    (e : (run g p seed).1 = .ok a) : Q a := always_run g hg p h seed a e

/-! ### the sampler of each kind of model -/

theorem goodMove_kind (k : ModelKind) (n : ℕ) (theta : List ℝ) :
    GoodMove (words (alphabet k) n) (boltzmann (words (alphabet k) n) (kindEnergy k theta)) (kindEnergy k theta) n
      (kindMove k theta) := by
  cases k
  · exact goodMove_metropolis n _
  · exact goodMove_metropolis n _
  · exact goodMove_potts3 n _

theorem returns_kindRandom (k : ModelKind) (n m : ℕ) :
    Returns (kindRandom k n m) fun x => x.length = m ∧ ∀ s ∈ x, s ∈ words (alphabet k) n := by
  cases k
  · exact returns_randomSample n m
  · exact returns_randomSample n m
  · exact returns_randomSamplePotts3 n m

theorem finDist_kindRandom (k : ModelKind) (n m : ℕ) :
    FinDist (kindRandom k n m) fun x => x.length = m ∧ ∀ s ∈ x, s ∈ words (alphabet k) n := by
  cases k
  · exact finDist_randomSample n m
  · exact finDist_randomSample n m
  · exact finDist_randomSamplePotts3 n m

theorem ergodic_kind (k : ModelKind) (n : ℕ) (hn : 0 < n) (theta : List ℝ)
    (hE : k ≠ .potts3 → ∃ s ∈ words [1, -1] n, ∃ t ∈ words [1, -1] n, kindEnergy k theta s ≠ kindEnergy k theta t) :
    Ergodic (withE (kindEnergy k theta) (words (alphabet k) n))
      (fun st => boltzmann (words (alphabet k) n) (kindEnergy k theta) st.1)
      (metroIter (kindMove k theta) n false 0) := by
  cases k
  · exact ergodic_metropolis n hn _ (hE (by simp))
  · exact ergodic_metropolis n hn _ (hE (by simp))
  · exact ergodic_potts3 n hn _

end Verif.Lemmas
