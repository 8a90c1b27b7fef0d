import Verif.Model.FloatStats

/-!
# The chi-square statistic in floating point arithmetic

`sum` is `numpy.sum`. NumPy adds fewer than eight numbers from left to right (`fsum`) and more numbers in blocks, so for larger
arrays the order of the additions is left open.
-/

namespace Pointpats.Float64

/-- One summand `(o - e) ** 2 / e` of `scipy.stats.chisquare` and quadrat_statistics.py:649. -/
def fterm (e o : ℚ) : ℚ := fdiv (fmul (fsub o e) (fsub o e)) e

/-- quadrat_statistics.py:641-644, 678-680 `scipy.stats.chisquare(counts)[0]`, as in `Quadrat.chisquare`. The sum of the counts
is exact below `2⁵³`, its quotient by the number of cells is rounded. -/
def fchisquare (sum : List ℚ → ℚ) (counts : List ℕ) : XF ℚ :=
  let e := fdiv (counts.sum : ℚ) (counts.length : ℚ)
  if counts = [] then .fin 0
  else if e = 0 then .nan
  else .fin (sum (counts.map fun (o : ℕ) => fterm e (o : ℚ)))

/-- quadrat_statistics.py:683-685 `chi2_r_pvalue`. -/
def fchi2RPvalue (chi2 : XF ℚ) (sims : List (XF ℚ)) (realizations : ℕ) : ℚ :=
  fpvalue (sims.filter fun s => XF.ge s chi2).length realizations

end Pointpats.Float64
