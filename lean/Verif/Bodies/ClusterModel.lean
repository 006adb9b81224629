import Verif.Bodies.JoinModel

/-!
# Clustering bodies

Model of `cluster_bodies` of `capytaine/bodies/bodies.py`. The function `linkage` of scipy is a parameter.
-/

namespace Verif.Bodies

open Verif.Geometry Verif.Meshes

/-- `join_bodies(*bodies, name=name)` (`bodies/bodies.py:765-804`): the argument only replaces the joined names
(`bodies/bodies.py:766-767`). The names of the meshes are left out. -/
noncomputable def joinNamed (heal down : Mesh (V3 ℝ) → Mesh (V3 ℝ)) (name : Name) (bodies : List Body) : Option Body :=
  (joinBodies heal down bodies).map fun b => { b with name := name }

/-- `'node_{:d}'.format(node_tag)` (`bodies/bodies.py:1199`). -/
def nodeName (tag : ℕ) : Name := "node_".toList ++ digits tag

/-- The loop on the rows of the linkage matrix (`bodies/bodies.py:1192-1200`), from the row `ii`. The rows are given
by their first two entries. `none` for the errors of `join_bodies` and for `IndexError`. -/
noncomputable def clusterLoop (heal down : Mesh (V3 ℝ) → Mesh (V3 ℝ)) (nbBuoys : ℕ) :
    List (ℕ × ℕ) → ℕ → List Body → Option (List Body)
  | [], _, nodes => some nodes
  | (left, right) :: rows, ii, nodes =>
    match nodes[left]?, nodes[right]? with
    | some a, some b =>
      match joinNamed heal down (nodeName (ii + nbBuoys)) [a, b] with
      | some x => clusterLoop heal down nbBuoys rows (ii + 1) (nodes ++ [x])
      | none => none
    | _, _ => none

/-- `cluster_bodies(*bodies, name=name)` (`bodies/bodies.py:1164-1208`). `center` is the center of buoyancy, which is
never `None`. `linkage` is scipy's, `none` for its `ValueError`. Without any row `new_node` is not defined. -/
noncomputable def clusterBodies (heal down : Mesh (V3 ℝ) → Mesh (V3 ℝ)) (linkage : List (ℝ × ℝ) → Option (List (ℕ × ℕ)))
    (center : Body → V3 ℝ) (bodies : List Body) (name : Option Name) : Option Body :=
  match linkage (bodies.map fun b => ((center b).x, (center b).y)) with
  | none => none
  | some rows =>
    match clusterLoop heal down bodies.length rows 0 bodies with
    | none => none
    | some nodes =>
      if rows = [] then none
      else nodes.getLast?.map fun x => match name with
        | none => x
        | some n => { x with name := n }

end Verif.Bodies
