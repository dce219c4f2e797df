import Verif.Model.Basic

/-!
# Algorithms of the C++ standard library used by the code

No file of /repo is modelled here.
-/

set_option autoImplicit false

namespace Marley.Std
variable {α : Type}

/-- The binary search loop shared by `std::lower_bound` and `std::upper_bound`
(libstdc++, bits/stl_algo.h): `first` is the start of the range still to be
searched and `len` its length.  `p` is the test that sends the search to the
right.  An element outside the vector (impossible when the range is inside it)
would send the search to the left. Used at src/DecayScheme.cc:362, include/marley/InterpolationGrid.hh:172. -/
def searchLoop (p : α → Bool) (l : List α) (first len : Nat) : Nat :=
  if len = 0 then first
  else
    let half := len / 2
    if (l[first + half]?).any p then searchLoop p l (first + half + 1) (len - half - 1)
    else searchLoop p l first half
termination_by len
decreasing_by all_goals omega

/-- `std::lower_bound(l.begin(), l.end(), x, comp) - l.begin()`, where `p a` is
`comp(a, x)`. Used at src/DecayScheme.cc:362, include/marley/InterpolationGrid.hh:172. -/
def lowerBound (p : α → Bool) (l : List α) : Nat := searchLoop p l 0 l.length

/-- `std::upper_bound(l.begin(), l.end(), x, comp) - l.begin()`, where `q a` is
`comp(x, a)`. Used at include/marley/InterpolationGrid.hh:179-183. -/
def upperBound (q : α → Bool) (l : List α) : Nat := searchLoop (fun a => !q a) l 0 l.length

end Marley.Std
