import Verif.Model.Ppd
import Verif.Model.Scripts

/-!
# What the plot of a posterior predictive file shows

Model of how `main` of `/repo/src/gwkokab_scripts/ppd_plot.py` reads one file of `compute_and_save_ppd` and what it draws of it.  How several files share figures is in
`Model/Scripts`.
-/

namespace GW.Ppd
open GW.Tools (Err)

/-- What is drawn for one parameter: the heading, the points of the x axis, the predictive curve and the five quantile curves.
Source: gwkokab_scripts/ppd_plot.py lines 294–330. -/
structure Panel where
  header : String
  xs : List ℝ
  predictive : List ℝ
  bands : List (List ℝ)

/-- An array of one axis as a list.  Source: gwkokab_scripts/ppd_plot.py lines 298 and 313–319. -/
noncomputable def Arr.toList (a : Arr) : List ℝ := (List.range (a.shape.headD 0)).map fun t => a.val [t]

/-- An array of two axes as its rows.  Source: gwkokab_scripts/ppd_plot.py lines 286 and 229–244. -/
noncomputable def Arr.toRows (a : Arr) : List (List ℝ) :=
  (List.range (a.shape.headD 0)).map fun t => (List.range ((a.shape.getD 1 0))).map fun s => a.val [t, s]

/-- `f["marginals"][head][:]`; a missing name is a `KeyError`.  Source: gwkokab_scripts/ppd_plot.py line 286. -/
def PpdFile.marginal (f : PpdFile) (head : String) : Except Err Arr :=
  match f.marginals.find? (·.1 == head) with
  | some p => .ok p.2
  | none => .error .key

/-- The panels of one file.  The marginals of the predictive array are computed again.
Source: gwkokab_scripts/ppd_plot.py lines 282–330. -/
noncomputable def panels (f : PpdFile) : Except Err (List Panel) :=
  match f.headers.mapM f.marginal with
  | .error e => .error e
  | .ok marginals =>
    match allMarginals f.ppd f.domains with
    | .error e => .error e
    | .ok marginalPpds =>
      (f.headers.zipIdx).mapM fun p : String × Nat =>
        match marginals[p.2]?, marginalPpds[p.2]?, f.domains[p.2]? with
        | some m, some mp, some d =>
          .ok { header := p.1, xs := (List.range d.points).map d.at, predictive := mp.toList, bands := Scripts.curves m.toRows }
        | _, _, _ => .error .index

end GW.Ppd
