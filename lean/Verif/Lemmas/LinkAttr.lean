import Lean
/-! Simp set for link fields of updated nodes. -/
register_simp_attr lnk
