import Verif.Spec.Ensemble
import Mathlib.MeasureTheory.Constructions.BorelSpace.Order

/-! Helper lemmas: measurability of the float operations. -/

set_option linter.unusedSectionVars false

namespace Dorado

open MeasureTheory

variable {β : Type} [MeasurableSpace β] {Ω : Type} [MeasurableSpace Ω]

theorem measurable_fin : Measurable (Fl.fin : ℝ → Fl ℝ) := fun _ h => h

theorem measurable_fl {g : Fl ℝ → β} (h : Measurable fun x => g (.fin x)) : Measurable g := fun _ hs => h hs

theorem measurable_opt {α : Type} [MeasurableSpace α] {g : Option α → β} (h : Measurable fun x => g (some x)) : Measurable g := fun _ hs => h hs

theorem measurable_osome {α : Type} [MeasurableSpace α] : Measurable (some : α → Option α) := fun _ h => h

/-- The kind of a float value. -/
def flKind : Fl ℝ → Fin 4
  | .nan => 0
  | .ninf => 1
  | .pinf => 2
  | .fin _ => 3

/-- The finite value. -/
noncomputable def flVal : Fl ℝ → ℝ
  | .fin x => x
  | _ => 0

/-- The float value of a kind. -/
def flMk : Fin 4 → ℝ → Fl ℝ
  | 0, _ => .nan
  | 1, _ => .ninf
  | 2, _ => .pinf
  | 3, x => .fin x

theorem flMk_eq (a : Fl ℝ) : flMk (flKind a) (flVal a) = a := by cases a <;> rfl

theorem measurable_flKind : Measurable flKind := measurable_fl measurable_const

theorem measurable_flVal : Measurable flVal := measurable_fl measurable_id

theorem measurable_fl2 {g : Fl ℝ → Fl ℝ → β} (h1 : ∀ a, Measurable fun x => g a (.fin x)) (h2 : ∀ b, Measurable fun x => g (.fin x) b)
    (h3 : Measurable fun p : ℝ × ℝ => g (.fin p.1) (.fin p.2)) {f f' : Ω → Fl ℝ} (hf : Measurable f) (hf' : Measurable f') :
    Measurable fun x => g (f x) (f' x) := by
  have hG : Measurable fun q : (Fin 4 × Fin 4) × (ℝ × ℝ) => g (flMk q.1.1 q.2.1) (flMk q.1.2 q.2.2) := by
    refine measurable_from_prod_countable_right fun q => ?_
    obtain ⟨a, b⟩ := q
    have c1 : ∀ a, Measurable fun p : ℝ × ℝ => g a (.fin p.2) := fun a => (h1 a).comp measurable_snd
    have c2 : ∀ b, Measurable fun p : ℝ × ℝ => g (.fin p.1) b := fun b => (h2 b).comp measurable_fst
    fin_cases a <;> fin_cases b <;> simp only [flMk] <;> first | exact measurable_const | exact c1 _ | exact c2 _ | exact h3
  have := hG.comp (((measurable_flKind.comp hf).prodMk (measurable_flKind.comp hf')).prodMk ((measurable_flVal.comp hf).prodMk (measurable_flVal.comp hf')))
  simpa only [Function.comp_def, flMk_eq] using this

variable {A : Arith ℝ}

theorem measurable_rnd : Measurable A.rnd := Monotone.measurable fun x y h => A.mono x y h

theorem Measurable.flAdd {f g : Ω → Fl ℝ} (hf : Measurable f) (hg : Measurable g) : Measurable fun x => A.add (f x) (g x) := by
  refine measurable_fl2 (g := A.add) (fun a => ?_) (fun b => ?_) ?_ hf hg
  · cases a <;> simp only [Arith.add] <;> first | exact measurable_const | exact measurable_fin.comp (measurable_rnd.comp (by fun_prop))
  · cases b <;> simp only [Arith.add] <;> first | exact measurable_const | exact measurable_fin.comp (measurable_rnd.comp (by fun_prop))
  · exact measurable_fin.comp (measurable_rnd.comp (by fun_prop))

theorem Measurable.flNeg {f : Ω → Fl ℝ} (hf : Measurable f) : Measurable fun x => Fl.neg (f x) :=
  (measurable_fl (measurable_fin.comp measurable_neg) : Measurable (Fl.neg : Fl ℝ → Fl ℝ)).comp hf

theorem Measurable.flSub {f g : Ω → Fl ℝ} (hf : Measurable f) (hg : Measurable g) : Measurable fun x => A.sub (f x) (g x) :=
  Measurable.flAdd hf (Measurable.flNeg hg)

theorem Measurable.flAbs {f : Ω → Fl ℝ} (hf : Measurable f) : Measurable fun x => Fl.abs (f x) :=
  (measurable_fl (measurable_fin.comp (measurable_id.max measurable_neg)) : Measurable (Fl.abs : Fl ℝ → Fl ℝ)).comp hf

theorem measurable_infMul : Measurable (Arith.infMul : ℝ → Fl ℝ) := by
  unfold Arith.infMul
  exact Measurable.ite (measurableSet_singleton 0) measurable_const (Measurable.ite measurableSet_Ioi measurable_const measurable_const)

theorem Measurable.flMul {f g : Ω → Fl ℝ} (hf : Measurable f) (hg : Measurable g) : Measurable fun x => A.mul (f x) (g x) := by
  refine measurable_fl2 (g := A.mul) (fun a => ?_) (fun b => ?_) ?_ hf hg
  · cases a <;> simp only [Arith.mul] <;> first | exact measurable_const | exact measurable_infMul | exact Measurable.flNeg measurable_infMul | exact measurable_fin.comp (measurable_rnd.comp (by fun_prop))
  · cases b <;> simp only [Arith.mul] <;> first | exact measurable_const | exact measurable_infMul | exact Measurable.flNeg measurable_infMul | exact measurable_fin.comp (measurable_rnd.comp (by fun_prop))
  · exact measurable_fin.comp (measurable_rnd.comp (by fun_prop))

theorem measurableSet_flLt {f g : Ω → Fl ℝ} (hf : Measurable f) (hg : Measurable g) : MeasurableSet {x | Fl.lt (f x) (g x) = true} := by
  rw [measurableSet_setOfPred]
  refine measurable_fl2 (g := fun a b => Fl.lt a b = true) (fun a => ?_) (fun b => ?_) ?_ hf hg
  · cases a <;> simp only [Fl.lt, decide_eq_true_eq] <;> first | exact measurable_const | exact measurableSet_setOfPred.1 measurableSet_Ioi
  · cases b <;> simp only [Fl.lt, decide_eq_true_eq] <;> first | exact measurable_const | exact measurableSet_setOfPred.1 measurableSet_Iio
  · simp only [Fl.lt, decide_eq_true_eq]
    exact measurableSet_setOfPred.1 (measurableSet_lt measurable_fst measurable_snd)

theorem measurableSet_flLe {f g : Ω → Fl ℝ} (hf : Measurable f) (hg : Measurable g) : MeasurableSet {x | Fl.le (f x) (g x) = true} := by
  rw [measurableSet_setOfPred]
  refine measurable_fl2 (g := fun a b => Fl.le a b = true) (fun a => ?_) (fun b => ?_) ?_ hf hg
  · cases a <;> simp only [Fl.le, decide_eq_true_eq] <;> first | exact measurable_const | exact measurableSet_setOfPred.1 measurableSet_Ici
  · cases b <;> simp only [Fl.le, decide_eq_true_eq] <;> first | exact measurable_const | exact measurableSet_setOfPred.1 measurableSet_Iic
  · simp only [Fl.le, decide_eq_true_eq]
    exact measurableSet_setOfPred.1 (measurableSet_le measurable_fst measurable_snd)

theorem Measurable.flMax {f g : Ω → Fl ℝ} (hf : Measurable f) (hg : Measurable g) : Measurable fun x => Fl.pyMax (f x) (g x) :=
  Measurable.ite (measurableSet_flLt hf hg) hg hf

end Dorado
