import Verif.Compress.Props

/-!
# The compressor of a layer and the other layers chosen (property C248)
-/

namespace Verif.Compress

open Verif Verif.Projection

/-- **C248.** A layer named in two lists of layers (without repetition) has the same compressor, or lack of
one, with both: its seeds do not depend on which other layers are chosen, nor on the order. -/
theorem C248_compressors (net : List Module) (hnet : (net.map Module.name).Nodup)
    (names names' : List String) (s p : ℤ) (hn : names.Nodup) (hn' : names'.Nodup)
    (hno : ∀ m ∈ net, m.name ∈ names → m.kind ≠ .other)
    (hno' : ∀ m ∈ net, m.name ∈ names' → m.kind ≠ .other) :
    ∃ r r', setup net names s p = .ok r ∧ setup net names' s p = .ok r' ∧
      r.length = names.length ∧ r'.length = names'.length ∧
      ∀ (k k' : ℕ) (x : String), names[k]? = some x → names'[k']? = some x → r[k]? = r'[k']? := by
  have last : ∀ {l : List String} (_ : l.Nodup) {k : ℕ} {x : String} (_ : l[k]? = some x),
      indexOf l x = k := by
    intro l hl k x hk
    refine last_idx hk fun j hj he => ?_
    have hkl := (List.getElem?_eq_some_iff.1 hk).1
    have := (List.getElem?_inj hkl hl).1 (hk.trans he.symm)
    omega
  obtain ⟨r, e, hl, h1, h2⟩ := (C102_setup net hnet names s p).2 hno
  obtain ⟨r', e', hl', h1', h2'⟩ := (C102_setup net hnet names' s p).2 hno'
  refine ⟨r, r', e, e', hl, hl', fun k k' x hk hk' => ?_⟩
  by_cases hx : x ∈ net.map Module.name
  · obtain ⟨m, hm, rfl⟩ := List.mem_map.1 hx
    obtain ⟨id, hid⟩ := List.mem_iff_getElem?.1 hm
    have a := h1 id m hid (List.mem_of_getElem? hk)
    have b := h1' id m hid (List.mem_of_getElem? hk')
    rw [last hn hk] at a
    rw [last hn' hk'] at b
    rw [a, b]
  · rw [h2 k x hk (.inl hx), h2' k' x hk' (.inl hx)]

/-- Three modules, the last two of which can be compressed: the last is third in one list and alone in
the other. -/
example : ∃ r r', setup [⟨"", .other, true⟩, ⟨"a", .linear, true⟩, ⟨"b", .linear, true⟩] ["a", "c", "b"] 5 7 = .ok r ∧
    setup [⟨"", .other, true⟩, ⟨"a", .linear, true⟩, ⟨"b", .linear, true⟩] ["b"] 5 7 = .ok r' ∧ r[2]? = r'[0]? := by
  obtain ⟨r, r', h1, h2, -, -, h⟩ := C248_compressors
    [⟨"", .other, true⟩, ⟨"a", .linear, true⟩, ⟨"b", .linear, true⟩] (by decide) ["a", "c", "b"] ["b"] 5 7
    (by decide) (by decide) (by decide) (by decide)
  exact ⟨r, r', h1, h2, h 2 0 "b" rfl rfl⟩

end Verif.Compress
