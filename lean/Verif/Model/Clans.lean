import Verif.Model.Lom

/-!
# Model of `canonical_loms` (lom/auxiliary_functions.py:964-988)
-/

namespace LFM

/-- auxiliary_functions.py:964-988 `canonical_loms(level, mode)`; the mode is looked at first -/
def canonical_loms (level mode : String) : Except Err (List String) := do
  let (clans, families) ←
    if mode = "implemented" then
      pure (["OR-AND", "OR-NAND", "OR-XOR", "NAND-XOR", "XOR-NAND", "XOR-AND", "XOR-NXOR", "XOR-XOR"],
        ["NOR-AND", "NOR-NAND", "NOR-XOR", "AND-XOR", "NXOR-NAND", "NXOR-AND", "NXOR-NXOR", "NXOR-XOR"])
    else if mode = "canonical" then
      pure (["AND-AND", "AND-NAND", "XOR-AND", "XOR-NAND", "AND-XOR", "AND-NXOR", "XOR-XOR", "XOR-NXOR"],
        ["OR-NAND", "OR-AND", "NXOR-AND", "NXOR-NAND", "OR-NXOR", "OR-XOR", "NXOR-XOR", "NXOR-NXOR"])
    else throw Err.valueError
  if level = "clans" then pure clans
  else if level = "families" then pure (clans ++ families)
  else throw Err.valueError

end LFM
