import Verif.Props.Names
import Verif.Lemmas.Policy

/-!
# C92: IPv6 addresses and subnets

An entry of a list of subnets covers the addresses that agree with it in their leading bits, IPv6 and IPv4 addresses alike, however they are written. The code
departs from this: a single address is compared as a text, `*` covers IPv4 addresses only, and IPv6 subnets of less than 96 bits cover no IPv4 address.
-/

namespace Mapl.Props

open Spec

variable {env : Env} {r r' : RuleObj} {rule : Rule} {m : Msg} {t : Predef} {p : List Nat} {s v : Str}

/-- **C92.** One compiled entry accepts exactly the addresses that it covers. -/
theorem C92_entry {env : Ext} {s : Str} {e : ExpandedSR} (h : expandOne env gs"subnet" s = .ok e) (text : Str) :
    AddressMatches e text (parseIP env text) ↔ Covers s text := address_covers h text

/-- **C92.** An entry is accepted if it is written as a subnet or as an address, and refused if not. -/
theorem C92_accepted {env : Ext} (hok : RegexpOk env) (s : Str) :
    (SubnetEntry s → ∃ e, expandOne env gs"subnet" s = .ok e) ∧ (¬ SubnetEntry s → expandOne env gs"subnet" s = .error (.err .badSubnet)) := by
  constructor
  · exact fun h => expandOne_subnet hok h
  · intro h
    rw [← entry_iff env] at h
    simp only [not_or] at h
    simp only [expandOne, true_and, if_true]
    rw [if_pos (by simpa using h)]

/-- **C92.** The address of a message is read if it is written as one; the number it is read as does not depend on how it is written. -/
theorem C92_read (env : Ext) (s : Str) : (parseIP env s = [] ↔ ¬ ∃ y, AddressText s y) ∧
    ∀ y, AddressText s y → parseIP env s ≠ [] ∧ ∀ s', AddressText s' y → parseIP env s' = parseIP env s := by
  have key : ∀ y, AddressText s y → parseIP env s ≠ [] := by
    intro y hy h
    have := (parseIP_complete env hy).1.length
    rw [h] at this
    simp at this
  refine ⟨⟨fun h ⟨y, hy⟩ => key y hy h, fun h => ?_⟩, fun y hy => ⟨key y hy, fun s' hy' => ?_⟩⟩
  · by_contra hc
    exact h (parseIP_sound hc)
  · obtain ⟨h1, h2⟩ := parseIP_complete env hy
    obtain ⟨h3, h4⟩ := parseIP_complete env hy'
    exact bval_injective h3.bytes h1.bytes (h3.length.trans h1.length.symm) (h4.trans h2.symm)

/-- **C92.** The sender of a prepared rule agrees with a message exactly if one of its entries covers the source address. -/
theorem C92_sender (hok : RegexpOk env) (hm : MsgOk env m) (hc : r.body.converted = false)
    (h : r.setPredefined env p t = .ok (r', none)) (hp : r'.prepared = some rule) (hs : Resolves t r.body.senderName s)
    (hv : Resolves t r.body.receiverName v) (ht : TextsOk r.body s v) (hty : r.body.senderType = gs"subnet") :
    (∃ e ∈ rule.senderList, SenderEntry env e m) ↔ ∃ e, Listed s e ∧ Covers e m.sourceIp := by
  rw [(parts_text hok hm hc h hp hs hv ht).1, SenderText, if_pos hty]

/-- **C92** for receivers. -/
theorem C92_receiver (hok : RegexpOk env) (hm : MsgOk env m) (hc : r.body.converted = false)
    (h : r.setPredefined env p t = .ok (r', none)) (hp : r'.prepared = some rule) (hs : Resolves t r.body.senderName s)
    (hv : Resolves t r.body.receiverName v) (ht : TextsOk r.body s v) (hty : r.body.receiverType = gs"subnet") :
    (∃ e ∈ rule.receiverList, ReceiverEntry env e m) ↔ ∃ e, Listed v e ∧ Covers e m.destinationIp := by
  rw [(parts_text hok hm hc h hp hs hv ht).2.1, ReceiverText, if_pos hty]

/-- **C92.** Nothing is covered that is not meant. -/
theorem C92_sound {e a : Str} (h : Covers e a) : MeantToCover e a := by
  rcases h with ⟨x, n, y, h1, h2, h3, _⟩ | ⟨rfl, y, h⟩
  · by_cases hs : e = gs"*"
    · subst hs
      obtain ⟨h4, h5⟩ := parseIP_complete Demo.ext h2
      refine ⟨0, 0, y, .all, h2, ?_⟩
      have := bval_lt h4.bytes
      rw [h5, h4.length] at this
      rw [Nat.div_eq_of_lt this, Nat.zero_div]
    · exact ⟨x, n, y, .net h1 hs, h2, h3⟩
  · exact ⟨y, 128, y, .address h, h, rfl⟩

/-- **C92, partial.** Everything is covered that is meant, except for IPv4 addresses and subnets of less than 96 bits, other spellings of a single address, and `*` for
addresses that are not IPv4. -/
theorem C92_partial {e a : Str} (h1 : ∀ x n y, NetText e x n → AddressText a y → IsV4 y → 96 ≤ n)
    (h2 : ∀ y, AddressText e y → AddressText a y → e = a) (h3 : e = gs"*" → ∀ y, AddressText a y → IsV4 y) : Covers e a ↔ MeantToCover e a := by
  refine ⟨C92_sound, ?_⟩
  rintro ⟨x, n, y, he, ha, h⟩
  cases he with
  | net hn _ => exact .inl ⟨x, n, y, hn, ha, h, fun hv => h1 _ _ _ hn ha hv⟩
  | address hy =>
    simp only [Nat.sub_self, Nat.pow_zero, Nat.div_one] at h
    subst h
    exact .inr ⟨h2 _ hy ha, x, hy⟩
  | all =>
    refine .inl ⟨_, 96, y, .all, ha, ?_, fun _ => Nat.le_refl _⟩
    have hy : y / 2 ^ 32 = 65535 := h3 rfl y ha
    exact Eq.trans (by decide) hy.symm

/-- **C92.** For a subnet it does not matter how the address is written. -/
theorem C92_spelling {e a a' : Str} {x n y : Nat} (h : NetText e x n) (ha : AddressText a y) (ha' : AddressText a' y) : Covers e a ↔ Covers e a' := by
  have key : ∀ {a a'}, AddressText a y → AddressText a' y → Covers e a → Covers e a' := by
    rintro a a' ha ha' (⟨x, n, y', h1, h2, h3⟩ | ⟨_, y, hy⟩)
    · obtain rfl := address_unique Demo.ext ha h2
      exact .inl ⟨x, n, _, h1, ha', h3⟩
    · exact absurd hy (net_not_address h)
  exact ⟨key ha ha', key ha' ha⟩

/-- **C92.** Written as a subnet of all bits, an address covers all its spellings and nothing else. -/
theorem C92_all_bits {s : Str} {ns : List Nat} (h : V6Text s ns) (a : Str) : Covers (s ++ gs"/128") a ↔ AddressText a (groupsVal ns) := by
  have hn : NetText (s ++ gs"/128") (groupsVal ns) 128 := by
    have : WrittenIn 10 Digit10 gs"128" 128 := .more (.more (.one (d := 1) rfl) (d := 2) rfl) (d := 8) rfl
    simpa using NetText.v6 h this (by decide)
  have hs : s ++ gs"/128" ≠ gs"*" := by
    intro hc
    have : '/' ∈ s ++ gs"/128" := by simp
    rw [hc] at this
    simp at this
  obtain ⟨net, h1, h2⟩ := parseCIDR_complete Demo.ext hn hs
  have h3 := covers_net Demo.ext (s := s ++ gs"/128") (by rw [if_neg hs]; exact h1) a
  rw [← h3]
  rcases parseIP_cases Demo.ext a with ⟨h4, h5⟩ | ⟨h4, h5⟩
  · rw [h4, parseCIDR_nil h1]
    simp only [Bool.false_eq_true, false_iff]
    exact fun h => h5 ⟨_, h⟩
  · rw [h2 _ h4]
    simp only [Nat.sub_self, Nat.pow_zero, Nat.div_one, show 96 ≤ 128 by decide, implies_true, and_true]
    constructor
    · intro h; rw [h]; exact h5
    · exact fun h => address_unique Demo.ext h h5

/-! ## Examples -/

/-- A rule for a list of subnets. -/
def subnetRule (name : Str) : RuleObj := { body := { (Demo.rule gs"block").body with senderType := gs"subnet", senderName := name } }

/-- A message from an address. -/
def fromAddress (s : Str) : Msg := { Demo.msgI with sourceIp := s, sourceNetIp := parseIP Demo.ext s }

theorem text_loopback : AddressText gs"::1" 1 :=
  .v6 (.short (s := []) (t := gs"1") (b := [1]) (.inl ⟨rfl, rfl⟩) (.inr (.one ⟨.one (d := 1) (.inl rfl), by decide⟩)) (by decide))

theorem text_loopback_long : AddressText gs"0:0:0:0:0:0:0:1" 1 := by
  have z : Group gs"0" 0 := ⟨.one (d := 0) (.inl rfl), by decide⟩
  have o : Group gs"1" 1 := ⟨.one (d := 1) (.inl rfl), by decide⟩
  exact .v6 (.full (.more z (.more z (.more z (.more z (.more z (.more z (.more z (.one o)))))))) rfl)

/-- **C92 is violated.** A single address covers one of its spellings only: `::1` is meant to cover `0:0:0:0:0:0:0:1`, and the rule does not apply. -/
theorem C92_spelling_violated : MeantToCover gs"::1" gs"0:0:0:0:0:0:0:1" ∧ ¬ Covers gs"::1" gs"0:0:0:0:0:0:0:1" ∧
    (check Demo.env {} (fromAddress gs"::1") [subnetRule gs"::1"]).map (·.decision) = .ok 3 ∧
    (check Demo.env {} (fromAddress gs"0:0:0:0:0:0:0:1") [subnetRule gs"::1"]).map (·.decision) = .ok 0 ∧
    (check Demo.env {} (fromAddress gs"0:0:0:0:0:0:0:1") [subnetRule gs"::1/128"]).map (·.decision) = .ok 3 := by
  refine ⟨⟨1, 128, 1, .address text_loopback, text_loopback_long, rfl⟩, ?_, rfl, rfl, rfl⟩
  rintro (⟨x, n, y, hn, _⟩ | ⟨h, _⟩)
  · exact net_not_address hn text_loopback
  · simp at h

/-- **C92 is violated.** `*` is meant to cover every address, and covers no IPv6 address. -/
theorem C92_all_violated : MeantToCover gs"*" gs"::1" ∧ ¬ Covers gs"*" gs"::1" ∧
    (check Demo.env {} (fromAddress gs"::1") [subnetRule gs"*"]).map (·.decision) = .ok 0 ∧
    (check Demo.env {} (fromAddress gs"10.0.0.1") [subnetRule gs"*"]).map (·.decision) = .ok 3 := by
  refine ⟨⟨0, 0, 1, .all, text_loopback, by decide⟩, ?_, rfl, rfl⟩
  rw [← covers_net Demo.ext (s := gs"*") (net := ⟨[0, 0, 0, 0], [0, 0, 0, 0]⟩) rfl]
  decide +kernel

theorem text_all : NetText gs"::/0" 0 0 :=
  .v6 (s := gs"::") (t := gs"0") (.short (s := []) (t := []) (.inl ⟨rfl, rfl⟩) (.inl ⟨rfl, rfl⟩) (by decide)) (.one rfl) (by decide)

theorem text_mapped : AddressText gs"::ffff:10.0.0.1" (V4.wide ⟨10, 0, 0, 1⟩) := by
  have f : Group gs"ffff" 65535 :=
    ⟨.more (.more (.more (.one (d := 15) (.inl rfl)) (d := 15) (.inl rfl)) (d := 15) (.inl rfl)) (d := 15) (.inl rfl), by decide⟩
  have := AddressText.v6 (.short (s := []) (.inl ⟨rfl, rfl⟩) (.inr (.more f (.dotted ⟨10, 0, 0, 1⟩))) (by decide))
  exact this

/-- **C92 is violated.** `::/0` has no bit that an address could miss, and covers no IPv4 address, not even one that is written as an IPv6 address. -/
theorem C92_mapped_violated : MeantToCover gs"::/0" gs"::ffff:10.0.0.1" ∧ ¬ Covers gs"::/0" gs"::ffff:10.0.0.1" ∧
    (check Demo.env {} (fromAddress gs"::ffff:10.0.0.1") [subnetRule gs"::/0"]).map (·.decision) = .ok 0 ∧
    (check Demo.env {} (fromAddress gs"10.0.0.1") [subnetRule gs"::/0"]).map (·.decision) = .ok 0 ∧
    (check Demo.env {} (fromAddress gs"::1") [subnetRule gs"::/0"]).map (·.decision) = .ok 3 := by
  refine ⟨⟨0, 0, _, .net text_all (by decide), text_mapped, by decide⟩, ?_, rfl, rfl, rfl⟩
  rw [← covers_net Demo.ext (s := gs"::/0") (net := ⟨List.replicate 16 0, List.replicate 16 0⟩) rfl]
  decide +kernel

/-- An IPv6 subnet that covers, in three spellings, and the cases of C92_partial, C92_spelling and C92_all_bits. -/
example : Covers gs"::/0" gs"::1" ∧ Covers gs"::/0" gs"0:0:0:0:0:0:0:1" ∧ (Covers gs"::/0" gs"::1" ↔ MeantToCover gs"::/0" gs"::1") ∧
    Covers gs"::1/128" gs"0:0:0:0:0:0:0:1" ∧
    (expandOne Demo.ext gs"subnet" gs"2001:DB8::/32").map (fun e => (e.isCIDR, e.cidr.contains (parseIP Demo.ext gs"2001:db8:1::5"),
      e.cidr.contains (parseIP Demo.ext gs"2001:db9:1::5"))) = .ok (true, true, false) := by
  have h1 : Covers gs"::/0" gs"::1" := .inl ⟨0, 0, 1, text_all, text_loopback, by decide, fun h => absurd h (by unfold IsV4; decide)⟩
  refine ⟨h1, (C92_spelling text_all text_loopback text_loopback_long).1 h1, C92_partial ?_ ?_ (by simp), ?_, by decide +kernel⟩
  · intro x n y _ hy hv
    obtain rfl := address_unique Demo.ext hy text_loopback
    exact absurd hv (by unfold IsV4; decide)
  · intro y hy
    exact absurd hy (net_not_address text_all)
  · exact (C92_all_bits (s := gs"::1") (.short (s := []) (t := gs"1") (b := [1]) (.inl ⟨rfl, rfl⟩) (.inr (.one ⟨.one (d := 1) (.inl rfl), by decide⟩)) (by decide)) _).2
      text_loopback_long

/-- A rule and a message that meet the hypotheses of `C92_sender`, and agree. -/
example :
    let r := subnetRule gs"::/0,10.0.0.0/8"
    let m := fromAddress gs"::1"
    TextsOk r.body gs"::/0,10.0.0.0/8" gs"*" ∧ MsgOk regexExt m ∧ SenderText gs"subnet" gs"::/0,10.0.0.0/8" m := by
  have net : NetText gs"10.0.0.0/8" (V4.wide ⟨10, 0, 0, 0⟩) 104 := .v4 ⟨10, 0, 0, 0⟩ (t := gs"8") (n := 8) (.one rfl) (by decide)
  refine ⟨⟨?_, ?_, ?_, ?_⟩, ⟨rfl, rfl, ?_, ?_, ?_, ?_, ?_, ?_⟩, ?_⟩
  · show NameOk gs"subnet" _
    rw [NameOk, if_pos rfl]
    intro e he
    have := mem_split_iff.2 he
    rw [show split ',' gs"::/0,10.0.0.0/8" = [gs"::/0", gs"10.0.0.0/8"] from rfl] at this
    simp only [List.mem_cons, List.not_mem_nil, or_false] at this
    rcases this with rfl | rfl
    · exact .inl ⟨_, _, text_all⟩
    · exact .inl ⟨_, _, net⟩
  · show PlainPattern gs"*"; decide
  · show PlainPattern gs"*"; decide
  · show PlainPattern gs"*"; decide
  all_goals try (show '\n' ∉ _; decide)
  rw [SenderText, if_pos rfl]
  exact ⟨gs"::/0", mem_split_iff.1 (by decide), .inl ⟨0, 0, 1, text_all, text_loopback, by decide, fun h => absurd h (by unfold IsV4; decide)⟩⟩

end Mapl.Props
