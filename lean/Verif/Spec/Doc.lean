import Verif.Spec.Core

/-! # Documented declarations

Specification only: a declaration with text right after its first tag (what remains of `<annotation><documentation>` when
the tags without handler are left out), and the component that should carry it. -/

namespace Xgen.Core

/-- The documentation that pieces of text leave in the place of `w`: the last piece that is not only white space, without
the white space around it. -/
def docFrom (w : Str) (xs : List Str) : Str := (((xs.map trimSpace).filter fun x => x ≠ []).getLast?).getD w

/-- The documentation in pieces of text. -/
def docOf (xs : List Str) : Str := docFrom [] xs

/-- A declaration with text right after its first tag. -/
def documented (d : Decl) (xs : List Str) : List Token :=
  match d.tokens with
  | [] => []
  | t :: ts => t :: (xs.map .text ++ ts)

/-- A component with documentation.  Groups lose it. -/
def setDoc (w : Str) : Node Element → Node Element
  | .simple v => .simple { v with doc := w }
  | .attr v => .attr { v with doc := w }
  | .elem v => .elem { v with doc := w }
  | .complex v => .complex { v with doc := w }
  | .group v => .group v
  | .attrGroup v => .attrGroup { v with doc := w }

/-- The last component with documentation: the others of a declaration are anonymous types inside it. -/
def docLast (w : Str) : List (Node Element) → List (Node Element)
  | [] => []
  | [n] => [setDoc w n]
  | n :: m :: ns => n :: docLast w (m :: ns)

/-- The tags and texts of a schema with documentation. -/
def documentedTokens (as : List Attr) (ds : List (Decl × List Str)) : List Token :=
  tag c!"schema" as (ds.flatMap fun d => documented d.1 d.2)

/-- The tree of a list of documented declarations. -/
def treeDoc (ref : Tree → Str → Str) : Tree → List (Decl × List Str) → Tree
  | t, [] => t
  | t, d :: ds => treeDoc ref (t ++ (docLast (docOf d.2) (d.1.nodes (ref t))).map some) ds

end Xgen.Core
