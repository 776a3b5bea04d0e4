import Verif.Props.C02

/-! # The parts of a qualified name -/

namespace Xgen.Names

/-- The local part of a qualified name. -/
def localPart (s : Str) : Str := if s.count ':' = 1 then (s.dropWhile (· ≠ ':')).tail else s

theorem localPart_eq (s : Str) : trimNSPrefix s = localPart s := by
  unfold localPart
  rcases C02.forms s with h | ⟨a, b, ha, hb, rfl⟩
  · rw [if_neg h, (C02.other_colons s h).2]
  · have hc : (a ++ ':' :: b).count ':' = 1 := by
      rw [List.count_append, List.count_cons_self, List.count_eq_zero_of_not_mem ha, List.count_eq_zero_of_not_mem hb]
    rw [if_pos hc, (C02.one_colon a b ha hb).2]
    rw [List.dropWhile_append_of_pos (fun c hc => by simpa using fun e : c = ':' => ha (e ▸ hc))]
    simp

/-- The prefix of a qualified name; empty without one. -/
def prefixPart (s : Str) : Str := if s.count ':' = 1 then s.takeWhile (· ≠ ':') else []

theorem prefixPart_eq (s : Str) : getNSPrefix s = prefixPart s := by
  unfold prefixPart
  rcases C02.forms s with h | ⟨a, b, ha, hb, rfl⟩
  · rw [if_neg h, (C02.other_colons s h).1]
  · have hc : (a ++ ':' :: b).count ':' = 1 := by
      rw [List.count_append, List.count_cons_self, List.count_eq_zero_of_not_mem ha, List.count_eq_zero_of_not_mem hb]
    rw [if_pos hc, (C02.one_colon a b ha hb).1]
    rw [List.takeWhile_append_of_pos (fun c hc => by simpa using fun e : c = ':' => ha (e ▸ hc))]
    simp

end Xgen.Names
