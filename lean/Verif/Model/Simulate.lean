/-
Model of seismostats/utils/simulate_distributions.py, in exact arithmetic. The random generator is a parameter: for each call
the list of uniform and the list of standard exponential numbers it would draw. `beta` may differ from magnitude to magnitude.
-/
import Verif.Model.Binning
import Mathlib.Analysis.SpecialFunctions.Log.Basic

namespace SeismoStats
namespace Simulate
open SeismoStats
open Classical

/-- Draws of one call: `np.random.uniform(0, 1)` and `np.random.exponential(1)`. -/
structure Rng where
  uniform : ℕ → ℝ
  expo : ℕ → ℝ

/-- Python truth of an optional number. -/
noncomputable def truthy (o : Option ℝ) : Option ℝ := o.bind fun x => if x = 0 then none else some x

/-- simulate_distributions.py:40-43: one magnitude of a truncated distribution. -/
noncomputable def truncated (β mc M u : ℝ) : ℝ :=
  -(1 / β) * Real.log (1 - ((1 - Real.exp (-β * mc)) + u * ((1 - Real.exp (-β * M)) - (1 - Real.exp (-β * mc)))))

/-- simulate_distributions.py:45: one magnitude of the distribution without maximum. -/
noncomputable def untruncated (β mc e : ℝ) : ℝ := (1 / β) * e + mc

/-- simulate_distributions.py:9-47 `simulate_magnitudes`. `1 / 0` is an error (with numpy numbers a warning: simplification);
numpy rejects a negative scale. -/
noncomputable def simulate (n : ℕ) (β : ℕ → ℝ) (mc : ℝ) (magMax : Option ℝ) (g : Rng) : Py (List ℝ) :=
  if ∃ i < n, β i = 0 then .error .zeroDivision
  else match truthy magMax with
    | some M => .ok ((List.range n).map fun i => truncated (β i) mc M (g.uniform i))
    | none => if ∃ i < n, β i < 0 then .error .valueError
      else .ok ((List.range n).map fun i => untruncated (β i) mc (g.expo i))

/-- The argument `b_parameter`. -/
inductive BParameter where
  | bValue | beta | other

/-- simulate_distributions.py:88-93. -/
noncomputable def toBeta (b : ℕ → ℝ) : BParameter → Py (ℕ → ℝ)
  | .bValue => .ok fun i => b i * Real.log 10
  | .beta => .ok b
  | .other => .error .valueError

/-- simulate_distributions.py:96-98. -/
noncomputable def binIf (δ : ℝ) (mags : List ℝ) : Py (List ℝ) := if 0 < δ then binArr mags δ else .ok mags

/-- simulate_distributions.py:50-98 `simulate_magnitudes_binned`. -/
noncomputable def simulateBinned (n : ℕ) (b : ℕ → ℝ) (mc δ : ℝ) (magMax : Option ℝ) (par : BParameter) (g : Rng) : Py (List ℝ) := do
  let β ← toBeta b par
  let mags ← simulate n β (mc - δ / 2) magMax g
  binIf δ mags

/-- simulate_distributions.py:130-139: the magnitudes of one bin. -/
noncomputable def ditherBin (b δ offset : ℝ) (g : ℕ → Rng) (p : (ℝ × ℝ) × ℕ) : Py (List ℝ) :=
  simulateBinned ⌊p.1.2⌋.toNat (fun _ => b) (p.1.1 + offset - δ / 2) 0 (some (p.1.1 + offset + δ / 2)) .bValue (g p.2)

/-- simulate_distributions.py:101-141 `dither_magnitudes`; bin number `k` uses the draws `g k`. -/
noncomputable def dither (mags : List ℝ) (δ b : ℝ) (g : ℕ → Rng) : Py (List ℝ) := do
  let ok ← binningTest (mags.map some) δ (defaultTol ℝ) true
  if ok then
    let (bins, counts, temp) ← getFmd mags δ none .center
    match amin? mags, amin? temp with
    | some m, some t => do
      let l ← ((bins.zip counts).zipIdx).mapM (ditherBin b δ (m - t) g)
      pure l.flatten
    | _, _ => .error .valueError
  else .error .valueError

end Simulate
end SeismoStats
