/-!
# What is observed of a work queue

A history is the list of submissions and the list of tasks handed out, each tagged with its request.
-/

namespace GJ.Spec

variable {G T : Type} [DecidableEq G]

/-- The tasks of one request, in order. -/
def ofGroup (g : G) (l : List (G × T)) : List T := (l.filter fun x => decide (x.1 = g)).map (·.2)

/-- The tasks of a request that were submitted and not yet handed out, when tasks are handed out in order. -/
def waiting (submitted handed : List (G × T)) (g : G) : List T :=
  (ofGroup g submitted).drop (ofGroup g handed).length

/-- The requests with waiting tasks are exactly those in `gs`, each listed once. -/
def WaitingGroups (submitted handed : List (G × T)) (gs : List G) : Prop :=
  gs.Nodup ∧ ∀ g, g ∈ gs ↔ waiting submitted handed g ≠ []

end GJ.Spec
