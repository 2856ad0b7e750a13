import Verif.Common.Res
import Mathlib.Algebra.Field.Rat
/-
Model of the quadrature tables, utils/integration/integrator_tables.h.  The decimal literals are taken as exact rational
numbers (their rounding to double is not modelled).
-/
namespace Fdapde.Quadrature

/-- `IntegratorTable<M, n>` : nodes and weights. -/
structure Table where
  nodes : List (List ℚ)
  weights : List ℚ

/-- integrator_tables.h:64-77 : `IntegratorTable<1, 2>`. -/
def rule1_2 : Table where
  nodes := [[0.211324865405187], [0.788675134594812]]
  weights := [0.500000000000000, 0.500000000000000]

/-- integrator_tables.h:80-93 : `IntegratorTable<1, 3>`. -/
def rule1_3 : Table where
  nodes := [[0.112701665379258], [0.500000000000000], [0.887298334620741]]
  weights := [0.277777777777778, 0.444444444444444, 0.277777777777778]

/-- integrator_tables.h:96-109 : `IntegratorTable<1, 3, GaussLegendre>`. -/
def legendre1_3 : Table where
  nodes := [[-0.774596669241483], [0.000000000000000], [0.774596669241483]]
  weights := [0.555555555555555, 0.888888888888888, 0.555555555555555]

/-- integrator_tables.h:112-126 : `IntegratorTable<1, 5, GaussLegendre>`. -/
def legendre1_5 : Table where
  nodes := [[-0.906179845938664], [-0.538469310105683], [0.000000000000000],
            [0.538469310105683], [0.906179845938664]]
  weights := [0.236926885056189, 0.478628670499366, 0.568888888888889, 0.478628670499366, 0.236926885056189]

/-- integrator_tables.h:132-143 : `IntegratorTable<2, 1>`. -/
def rule2_1 : Table where
  nodes := [[0.333333333333333, 0.333333333333333]]
  weights := [1.0]

/-- integrator_tables.h:146-161 : `IntegratorTable<2, 3>`. -/
def rule2_3 : Table where
  nodes := [[0.166666666666667, 0.166666666666667], [0.666666666666667, 0.166666666666667],
            [0.166666666666667, 0.666666666666667]]
  weights := [0.333333333333333, 0.333333333333333, 0.333333333333333]

/-- integrator_tables.h:164-183 : `IntegratorTable<2, 6>`. -/
def rule2_6 : Table where
  nodes := [[0.445948490915965, 0.445948490915965], [0.445948490915965, 0.108103018168070],
            [0.108103018168070, 0.445948490915965], [0.091576213509771, 0.091576213509771],
            [0.091576213509771, 0.816847572980459], [0.816847572980459, 0.091576213509771]]
  weights := [0.223381589678011, 0.223381589678011, 0.223381589678011, 0.109951743655322, 0.109951743655322,
              0.109951743655322]

/-- integrator_tables.h:186-207 : `IntegratorTable<2, 7>`. -/
def rule2_7 : Table where
  nodes := [[0.333333333333333, 0.333333333333333], [0.101286507323456, 0.101286507323456],
            [0.101286507323456, 0.797426985353087], [0.797426985353087, 0.101286507323456],
            [0.470142064105115, 0.470142064105115], [0.470142064105115, 0.059715871789770],
            [0.059715871789770, 0.470142064105115]]
  weights := [0.225000000000000, 0.125939180544827, 0.125939180544827, 0.125939180544827, 0.132394152788506,
              0.132394152788506, 0.132394152788506]

/-- integrator_tables.h:210-236 : `IntegratorTable<2, 12>`. -/
def rule2_12 : Table where
  nodes := [[0.873821971016996, 0.063089014491502], [0.063089014491502, 0.873821971016996],
            [0.063089014491502, 0.063089014491502], [0.501426509658179, 0.249286745170910],
            [0.249286745170910, 0.501426509658179], [0.249286745170910, 0.249286745170910],
            [0.636502499121399, 0.310352451033785], [0.636502499121399, 0.053145049844816],
            [0.310352451033785, 0.636502499121399], [0.310352451033785, 0.053145049844816],
            [0.053145049844816, 0.636502499121399], [0.053145049844816, 0.310352451033785]]
  weights := [0.050844906370207, 0.050844906370207, 0.050844906370207, 0.116786275726379, 0.116786275726379,
              0.116786275726379, 0.082851075618374, 0.082851075618374, 0.082851075618374, 0.082851075618374,
              0.082851075618374, 0.082851075618374]

/-- integrator_tables.h:242-253 : `IntegratorTable<3, 1>`. -/
def rule3_1 : Table where
  nodes := [[0.250000000000000, 0.250000000000000, 0.250000000000000]]
  weights := [1.0]

/-- integrator_tables.h:256-272 : `IntegratorTable<3, 4>`. -/
def rule3_4 : Table where
  nodes := [[0.585410196624969, 0.138196601125011, 0.138196601125011],
            [0.138196601125011, 0.138196601125011, 0.138196601125011],
            [0.138196601125011, 0.138196601125011, 0.585410196624969],
            [0.138196601125011, 0.585410196624969, 0.138196601125011]]
  weights := [0.250000000000000, 0.250000000000000, 0.250000000000000, 0.250000000000000]

/-- integrator_tables.h:275-292 : `IntegratorTable<3, 5>`. -/
def rule3_5 : Table where
  nodes := [[0.250000000000000, 0.250000000000000, 0.250000000000000],
            [0.500000000000000, 0.166666666666667, 0.166666666666667],
            [0.166666666666667, 0.500000000000000, 0.166666666666667],
            [0.166666666666667, 0.166666666666667, 0.500000000000000],
            [0.166666666666667, 0.166666666666667, 0.166666666666667]]
  weights := [-0.80000000000000, 0.450000000000000, 0.450000000000000, 0.450000000000000, 0.450000000000000]

/-- integrator_tables.h:295-320 : `IntegratorTable<3, 11>`. -/
def rule3_11 : Table where
  nodes := [[0.2500000000000000, 0.2500000000000000, 0.2500000000000000],
            [0.7857142857142857, 0.0714285714285714, 0.0714285714285714],
            [0.0714285714285714, 0.0714285714285714, 0.0714285714285714],
            [0.0714285714285714, 0.0714285714285714, 0.7857142857142857],
            [0.0714285714285714, 0.7857142857142857, 0.0714285714285714],
            [0.1005964238332008, 0.3994035761667992, 0.3994035761667992],
            [0.3994035761667992, 0.1005964238332008, 0.3994035761667992],
            [0.3994035761667992, 0.3994035761667992, 0.1005964238332008],
            [0.3994035761667992, 0.1005964238332008, 0.1005964238332008],
            [0.1005964238332008, 0.3994035761667992, 0.1005964238332008],
            [0.1005964238332008, 0.1005964238332008, 0.3994035761667992]]
  weights := [-0.0789333333333333, 0.0457333333333333, 0.0457333333333333, 0.0457333333333333, 0.0457333333333333,
              0.1493333333333333, 0.1493333333333333, 0.1493333333333333, 0.1493333333333333, 0.1493333333333333,
              0.1493333333333333]

/-- integrator_tables.h:25-56 : number of nodes of the rule chosen for elements of dimension `dim` and order `order`;
0 is the error value. -/
def ruleSize (dim order : Nat) : Nat :=
  match dim with
  | 1 => match order with
    | 1 => 2
    | 2 => 3
    | _ => 3
  | 2 => match order with
    | 1 => 3
    | 2 => 6
    | _ => 12
  | 3 => match order with
    | 1 => 4
    | 2 => 5
    | _ => 5
  | _ => 0

/-- The specialisations of `IntegratorTable<M, n>` (integrator_tables.h:64-318); any other is not defined. -/
def table : Nat → Nat → Option Table
  | 1, 2 => some rule1_2
  | 1, 3 => some rule1_3
  | 2, 1 => some rule2_1
  | 2, 3 => some rule2_3
  | 2, 6 => some rule2_6
  | 2, 7 => some rule2_7
  | 2, 12 => some rule2_12
  | 3, 1 => some rule3_1
  | 3, 4 => some rule3_4
  | 3, 5 => some rule3_5
  | 3, 11 => some rule3_11
  | _, _ => none

end Fdapde.Quadrature
