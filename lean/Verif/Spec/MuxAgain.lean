import Verif.Spec.Mux
import Verif.Spec.TranslateGo

/-!
# Specification vocabulary for repeated multiplexing
-/

namespace Thema.Spec

variable {V : Type}

/-- A decoder and an encoder belong together, on the data `Plain`: decoded data are plain, and what
has been encoded from plain data decodes to data that are encoded in the same way and that every
schema accepts which accepted the data encoded. -/
structure CodecLaws (C : Cue V) (dec : Decoder V) (enc : Encoder V) (Plain : V → Prop) : Prop where
  decoded : ∀ b d, dec b = .ok d → Plain d
  again : ∀ v ob, Plain v → enc v = .ok ob →
    ∃ w, dec ob = .ok w ∧ enc w = .ok ob ∧ ∀ body, C.accepts body v → C.accepts body w

/-- Concrete data with defaults chosen are plain. -/
def DefaultsPlain (C : Cue V) (Plain : V → Prop) : Prop :=
  ∀ v, C.marshals (C.dflt v) = true → Plain (C.dflt v)

/-- A genuine instance with plain data. -/
def GenuinePlain (C : Cue V) (H : Heap V) (Plain : V → Prop) (i : Inst V) : Prop :=
  Genuine C H i ∧ Plain i.raw

end Thema.Spec
