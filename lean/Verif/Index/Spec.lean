import Verif.Index.Model

/-!
# Specification vocabulary for blocks and windows

Independent of how the code computes anything: cells are integer triples,
a block of dimensions `d` has the cells `0 ≤ c < d`, a window has the block
cells `offset ≤ c < offset + extent`.
-/

namespace SpatialOps

/-- `c` is a cell of a block with dimensions `d`. -/
def InBlock (d c : IntVec) : Prop := IntVec.Le 0 c ∧ IntVec.Lt c d

/-- Fortran (x fastest) position of cell `c` in a block with dimensions `d`. -/
def fortranPos (d c : IntVec) : Int := c.x + d.x * (c.y + d.y * c.z)

/-- `a` comes before `b` in fortran order. -/
def FortranLt (a b : IntVec) : Prop :=
  a.z < b.z ∨ (a.z = b.z ∧ (a.y < b.y ∨ (a.y = b.y ∧ a.x < b.x)))

namespace Window

/-- The window is legal and lies inside its block. -/
def Fits (w : Window) : Prop :=
  IntVec.Lt 0 w.npts ∧ IntVec.Le 0 w.offset ∧ IntVec.Le 0 w.extent ∧
  IntVec.Le (w.offset + w.extent) w.npts

/-- The window is not empty. -/
def Nonempty (w : Window) : Prop := IntVec.Lt 0 w.extent

/-- Block cell `c` belongs to the window. -/
def Covers (w : Window) (c : IntVec) : Prop :=
  IntVec.Le w.offset c ∧ IntVec.Lt c (w.offset + w.extent)

instance (w : Window) : Decidable w.Fits := by unfold Fits; infer_instance
instance (w : Window) : Decidable w.Nonempty := by unfold Nonempty; infer_instance

end Window

instance (d c : IntVec) : Decidable (InBlock d c) := by unfold InBlock; infer_instance

/-- Unfold all componentwise facts about triples and windows, then `omega`. -/
macro "iv_omega" : tactic => `(tactic| (
  try simp only [InBlock, Window.Fits, Window.Nonempty, Window.Covers, IntVec.Le, IntVec.Lt,
    IntVec.add_x, IntVec.add_y, IntVec.add_z, IntVec.sub_x, IntVec.sub_y, IntVec.sub_z,
    IntVec.neg_x, IntVec.neg_y, IntVec.neg_z, IntVec.zero_x, IntVec.zero_y, IntVec.zero_z] at *
  omega))

end SpatialOps
