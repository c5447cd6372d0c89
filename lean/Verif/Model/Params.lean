import Verif.Model.Expr

/-!
# Variables in a contiguous block of memory

README.md:441-470 ("Advanced Usage") binds `VarView`s one after the other to a contiguous block.
-/

namespace FastAD

/-- README.md:441-466: `VarView` objects are bound one after the other, each one where the previous one ended.

The README writes `VarView<double, vec> v(3)`, `val_next = x.bind(vals.data())` and `x.bind_adj(..)`.  The code has no such constructor (var_view.hpp:141-146 takes
two pointers first), no `bind_adj`, and `bind` takes a pair of pointers (value_adj_view.hpp:46-51, which hides value_view.hpp:57): the program that can be written is
`VarView<double, vec> v(nullptr, nullptr, 3); next = x.bind({vals.data(), adjs.data()}); next = v.bind(next);`. -/
def bindViews : List Shape → Pack → List View × Pack
  | [], b => ([], b)
  | sh :: shs, b =>
      let (v, b) := (View.null sh).bind b
      let (vs, b) := bindViews shs b
      (v :: vs, b)

end FastAD
