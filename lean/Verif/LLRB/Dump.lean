import Verif.LLRB.Model

/-!
Model of Dump of the left-leaning red-black tree: /repo/llrb_dump.go.

What is printed is a list of lines holding the values printed in them. DumpKey is represented by what it fails on. The tree is only
read, so nothing but the lines and `err` is returned.
-/

namespace SM.LLRB

/-- What is printed. -/
inductive Line (K : Type) where
  /-- llrb_dump.go:69: colour, key, keys of the children (absent: "nil"), `len` -/
  | flat (red : Bool) (key : K) (left right : Option K) (len : Int)
  /-- llrb_dump.go:103: the root's line -/
  | root (key : K)
  /-- llrb_dump.go:133-145: indentation (`true` is the one with a bar), which child it is, key; no key if DumpKey failed -/
  | tree (indent : List Bool) (isRight : Bool) (key : Option K)

namespace Tree
variable {K V : Type}

def key? : Tree K V → Option K
  | nil => none
  | node k _ _ _ _ _ => some k

/-- llrb_dump.go:41-56: DumpKey of a child's key fails -/
def childFails (bad : K → Bool) (t : Tree K V) : Bool :=
  match t.key? with
  | none => false
  | some k => bad k

/-- llrb_dump.go:35-83 `dumpInFlatForm` -/
def dumpFlat (bad : K → Bool) : Tree K V → List (Line K) × Option Err
  | nil => ([], none)
  | node k _ l r c n =>
      if childFails bad l then ([], some .codec)
      else if childFails bad r then ([], some .codec)
      else if bad k then ([], some .codec)
      else
        let x : Line K := .flat c k l.key? r.key? n
        match dumpFlat bad l with
        | (a, some e) => (x :: a, some e)
        | (a, none) =>
          match dumpFlat bad r with
          | (b, e) => (x :: (a ++ b), e)

/-- llrb_dump.go:116-162 `dumpInTreeFormNode`; nothing for a nil node (lines 120, 147) -/
def dumpTreeNode (bad : K → Bool) : Tree K V → Bool → List Bool → List (Line K) × Option Err
  | nil, _, _ => ([], none)
  | node k _ l r _ _, isRight, indent =>
      match dumpTreeNode bad r true (indent ++ [!isRight]) with
      | (a, some e) => (a, some e)
      | (a, none) =>
        if bad k then (a ++ [.tree indent isRight none], some .codec)
        else
          match dumpTreeNode bad l false (indent ++ [isRight]) with
          | (b, e) => (a ++ .tree indent isRight (some k) :: b, e)

/-- llrb_dump.go:85-114 `dumpInTreeForm` -/
def dumpTree (bad : K → Bool) : Tree K V → List (Line K) × Option Err
  | nil => ([], none)
  | node k _ l r _ _ =>
      match dumpTreeNode bad r true [] with
      | (a, some e) => (a, some e)
      | (a, none) =>
        if bad k then (a, some .codec)
        else
          match dumpTreeNode bad l false [] with
          | (b, e) => (a ++ .root k :: b, e)

/-- llrb_dump.go:11-33 `Dump`; the line repeating the error is left out -/
def dump (bad : K → Bool) (t : Tree K V) : List (Line K) × Option Err :=
  match dumpFlat bad t with
  | (a, some e) => (a, some e)
  | (a, none) =>
    match dumpTree bad t with
    | (b, e) => (a ++ b, e)

end Tree
end SM.LLRB
