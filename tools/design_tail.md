## Wrong programs

`seeded/LOG.jsonl` has one line per wrong program tried: the definition edited, the edit, the property it breaks, the theorems whose proofs failed (other theorems were
kept by replacing failed proofs with `sorry` in the scratch copy), the claim theorems lost directly or through dependence, and the theorems tightened or added because the
edit had not been noticed. Findings that led to changes:

* The exponent in the entropy was used by no theorem: `C80_*` added.
* Exchanging the virtual functions called for two boundary kinds was seen only by construction theorems: `C14_effect` relates configuration and ghost state.
* The factor in the conductivity was seen only through the Jacobian: `C81_*` states Fourier's law with the Prandtl number.
* Exchanging two names of boundary types was seen only by an example, since the specification used the model's table: `C63_*` and `C65_boundary` now have their own table.
