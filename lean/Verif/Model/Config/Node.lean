import Verif.Model.Config.Path
import Verif.Model.Assoc
/-
  The tree of configuration links.

  Code modelled: src/utils/config/node.{h,cpp}.

  * The nodes are owned by their parent only, so the tree is a value; `Node*` returned by `get` is the path
    to it.
  * `children` is an unordered map: the order of the list is that of its iteration, about which nothing may
    be assumed.
-/
namespace Reflect.Config
open Json (Byte Bytes)

/-- `Node`, node.h:18-36 -/
inductive Node where
  | mk (links : List Path) (children : List (Bytes × Node))

def Node.links : Node → List Path | .mk l _ => l
def Node.children : Node → Assoc Bytes Node | .mk _ c => c

/-- `new Node` -/
def Node.empty : Node := .mk [] []

/-- `Node::has`, node.cpp:23-33; the path is the part from `index` on -/
def Node.has (n : Node) : Path → Bool
  | [] => true
  | k :: p =>
    match Assoc.get n.children k with
    | none => false
    | some c => c.has p

/-- `Node::get`, node.cpp:35-46, followed by a change of the node it returns -/
def Node.at (f : Node → Node) (n : Node) : Path → Node
  | [] => f n
  | k :: p =>
    match Assoc.get n.children k with
    | none => .mk n.links ((k, Node.at f .empty p) :: n.children)
    | some c => .mk n.links (Assoc.set n.children k (Node.at f c p))

/-- the tree after `Node::get` -/
def Node.get (n : Node) (p : Path) : Node := Node.at id n p

/-- the node `Node::get` returns, in that tree -/
def Node.find (n : Node) : Path → Node
  | [] => n
  | k :: p =>
    match Assoc.get n.children k with
    | none => Node.find .empty p
    | some c => c.find p

/-- `std::set<Path>::insert`: the elements are ordered by `operator<`, and one that is neither before nor
after an element is not inserted -/
def insertLink (link : Path) : List Path → List Path
  | [] => [link]
  | l :: ls =>
    if link.lt l then link :: l :: ls
    else if l.lt link then l :: insertLink link ls
    else l :: ls

/-- `Node::add`, node.cpp:66-71 -/
def Node.add (n : Node) (link path : Path) : Node := Node.at (fun m => .mk (insertLink link m.links) m.children) n path

/-- `Node::erase`, node.cpp:73-94 -/
def Node.erase (n : Node) : Path → Node
  | [] => .mk [] []
  | k :: p =>
    match Assoc.get n.children k with
    | none => n
    | some c =>
      let c' := c.erase p
      if c'.links = [] ∧ c'.children = [] then .mk n.links (Assoc.erase n.children k)
      else .mk n.links (Assoc.set n.children k c')

mutual
/-- `Node::subtree(result, path)`, node.cpp:48-55: each child's key is parsed as a path, with the separator
`.` -/
def Node.subtreeFrom (pre : Path) : Node → List (Path × Path) → Res (List (Path × Path))
  | .mk links children, result => Node.subtreeChildren pre children (result ++ links.map (fun l => (pre, l)))
def Node.subtreeChildren (pre : Path) : List (Bytes × Node) → List (Path × Path) → Res (List (Path × Path))
  | [], result => .ok result
  | (k, c) :: cs, result =>
    match pre.append k with
    | .error e => .error e
    | .ok q =>
      match c.subtreeFrom q result with
      | .error e => .error e
      | .ok result => Node.subtreeChildren pre cs result
end

/-- `Node::subtree()`, node.cpp:57-64 -/
def Node.subtree (n : Node) : Res (List (Path × Path)) := n.subtreeFrom [] []

end Reflect.Config
