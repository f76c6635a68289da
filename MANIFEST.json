{"claims": [
  {"property": "C01", "status": "proved", "theorems": ["Verif.TMM.C01_coh_tmm_maxwell"], "note": "C01_coh_tmm_maxwell: (any complex indices): there is a direction cosine in the backing medium, obeying Snell's law, such that whatever directions are chosen for the films, the amplitudes returned by `coh_tmm` solve Maxwell's boundary value problem, and they are the only solution."},
  {"property": "C02", "status": "proved", "theorems": ["Verif.TMM.C02_coh_tmm_fresnel"], "note": "C02_coh_tmm_fresnel: a bare interface gives the Fresnel coefficients at the angle given by Snell's law."},
  {"property": "C03", "status": "proved", "theorems": ["Verif.TMM.C03_coh_tmm_airy"], "note": "C03_coh_tmm_airy: a single film gives the Airy formula."},
  {"property": "C04", "status": "proved", "theorems": ["Verif.TMM.C04_zero_thickness", "Verif.TMM.C04_zero_thickness_physical", "Verif.TMM.C04_psi_delta"], "note": "C04_zero_thickness: any complex indices: inserting a layer of zero thickness anywhere changes neither amplitude (whenever both calculations are finite). | C04_zero_thickness_physical: for physical stacks: both calculations succeed and give the same amplitudes. | C04_psi_delta: at the level of the observables: a layer of zero thickness does not change (psi, delta)."},
  {"property": "C05", "status": "partial", "theorems": ["Verif.TMM.C05_split_partial", "Verif.TMM.C05_psi_delta_partial", "Verif.TMM.C05_clip_breaks_split"], "note": "C05_split_partial: replacing a layer by two layers of the same index whose thicknesses add up changes neither amplitude, provided no attenuation exponent reaches the clip at 35. Missing: attenuation exponents above 35, where the claim is false (`C05_clip_breaks_split`). | C05_psi_delta_partial: for the observables: splitting does not change (psi, delta); same restriction. | C05_clip_breaks_split: fails as soon as the clip acts: a film of index `1+i` and attenuation exponent 40 does not give the reflection of the same film cut in two halves of exponent 20."},
  {"property": "C06", "status": "proved", "theorems": ["Verif.TMM.C06_match_backing", "Verif.TMM.C06_psi_delta"], "note": "C06_match_backing: a last layer with the index of the backing medium, of any thickness, does not change the reflection amplitudes. | C06_psi_delta: for the observables: such a layer does not change (psi, delta)."},
  {"property": "C07", "status": "proved", "theorems": ["Verif.TMM.C07_match_fronting", "Verif.TMM.C07_psi_delta"], "note": "C07_match_fronting: a first layer with the index of the fronting medium multiplies both reflection amplitudes by the same non-zero factor (so their ratio is unchanged). | C07_psi_delta: for the observables: such a layer does not change (psi, delta)."},
  {"property": "C08", "status": "proved", "theorems": ["Verif.TMM.C08_coh_tmm_passive"], "note": "C08_coh_tmm_passive: reflected plus transmitted power never exceeds the incident power."},
  {"property": "C09", "status": "proved", "theorems": ["Verif.TMM.C09_coh_tmm_lossless"], "note": "C09_coh_tmm_lossless: if no film absorbs, the power balance is an equality."},
  {"property": "C10", "status": "proved", "theorems": ["Verif.TMM.C10_coh_tmm_finite"], "note": "C10_coh_tmm_finite: for a physical stack every amplitude is finite (no zero denominator anywhere)."},
  {"property": "C11", "status": "proved", "theorems": ["Verif.TMM.C11_snell", "Verif.TMM.C11_direction_irrelevant"], "note": "C11_snell: Snell's law holds in every layer of the code's list of angles. | C11_direction_irrelevant: the result does not depend on the propagation direction chosen for any film: two descriptions of the same films have exactly the same solutions."},
  {"property": "C12", "status": "partial", "theorems": ["Verif.TMM.C12_outgoing_partial", "Verif.TMM.C12_growing_wave", "Verif.TMM.C12_growing_wave_witness"], "note": "C12_outgoing_partial: C01/C12: with a transparent fronting medium and a passive backing medium, the result is the unique solution with an *outgoing* (decaying) wave in the backing medium. Missing from the full claim C12: total internal reflection at a transparent backing medium with positive angle (see `C12_growing_wave`). | C12_growing_wave: negation: in total internal reflection at a transparent backing medium with positive angle of incidence, `coh_tmm` returns the *complex conjugate* of the physical amplitude (the one belonging to a decaying wave), for every such interface. | C12_growing_wave_witness: concrete witness of the failure: at 45 degrees from index 2 to index 1 the amplitude returned is not the physical one."},
  {"property": "C13", "status": "partial", "theorems": ["Verif.TMM.C13_fails_clip", "Verif.TMM.C13_angle_sign_partial", "Verif.TMM.C13_fails_total_reflection"], "note": "C13_fails_clip: fails also if a film beyond its critical angl: e attenuates by more than e^-35: light tunnelling through a gap of index 1 between media of index 2, at +45 and -45 degrees. The clip acts at the negative angle only. | C13_angle_sign_partial: the sign of the angle of incidence does not matter, if the backing medium is not beyond its critical angle and films beyond theirs attenuate by less than e^-35. Missing: total internal reflection at the backing, and films that attenuate more; there the claim is false (`C13_fails_total_reflection`, `C13_fails_clip`). | C13_fails_total_reflection: fails under total internal reflection: from index 2 to index 1, the results at +45 and -45 degrees differ (the latter is the physical one)."},
  {"property": "C14", "status": "proved", "theorems": ["Verif.TMM.C14_encode_ratio", "Verif.TMM.C14_finite_iff", "Verif.TMM.C14_psi"], "note": "C14_encode_ratio: whenever psi and delta are finite, `r_p = r_s tan(psi) exp(-i delta)` (delta before offset), with psi strictly between 0 and 90 degrees and delta between 0 and 360. | C14_finite_iff: converse: psi and delta are finite exactly when both amplitudes are finite and non-zero. | C14_psi: for psi alone: psi is finite exactly when both amplitudes are finite and not both zero; then `|r_p| cos(psi) = |r_s| sin(psi)` with psi between 0 and 90 degrees, so psi is 0 where `r_p` vanishes (the Brewster angle) and 90 where `r_s` vanishes."},
  {"property": "C15", "status": "proved", "theorems": ["Verif.TMM.C15_reflect"], "note": "C15_reflect: reflecting delta gives `min(d, 360 - d)` (before offset) at every point and leaves psi alone; the result lies between 0 and 180."},
  {"property": "C16", "status": "proved", "theorems": ["Verif.RModel.C16_model", "Verif.TMM.C16_offset"], "note": "C16_model: raising the delta offset parameter by `c` raises every delta by `c`, if no other quantity uses that parameter. | C16_offset: changing the offset by `c` adds `c` to every delta and leaves psi alone."},
  {"property": "C17", "status": "proved", "theorems": ["Verif.TMM.C17_ignored"], "note": "C17_ignored: roughness, the extinction coefficient of the fronting medium, and the thicknesses of the fronting and backing slabs have no influence on the result."},
  {"property": "C18", "status": "proved", "theorems": ["Verif.TMM.C18_scale"], "note": "C18_scale: scaling all thicknesses and the wavelength by the same factor changes nothing."},
  {"property": "C19", "status": "proved", "theorems": ["Verif.RModel.C19_model", "Verif.RModel.C19_rearranged", "Verif.TMM.C19_coh_tmm_pointwise", "Verif.TMM.C19_delta_psi_pointwise"], "note": "C19_model: calling the model on an array gives at every row exactly what calling it on that row alone gives, and it succeeds if and only if it does on every row. | C19_rearranged: permuting, repeating and leaving out rows permutes, repeats and leaves out results: any array all of whose rows occur in an array that can be evaluated can be evaluated, and equal rows have equal results. | C19_coh_tmm_pointwise: for `coh_tmm`: a batch gives at every point what the point alone gives (although the test for opaque layers looks at the whole batch). | C19_delta_psi_pointwise: for `Delta_Psi_TMM`: the angles are treated independently of each other."},
  {"property": "C20", "status": "proved", "theorems": ["Verif.RModel.C20_history", "Verif.RModel.C20_after"], "note": "C20_history: the result of calling the model depends on the current parameter values and the settings only, whatever was evaluated or left in the structure before. | C20_after: after a successful call on a non-empty array the structure is as before except that its wavelength is the largest one of the array."},
  {"property": "C21", "status": "partial", "theorems": ["Verif.RModel.C21_float_partial", "Verif.RModel.C21_integer_truncates", "Verif.RModel.C21_fails_integer"], "note": "C21_float_partial: partial: for arrays of floats the values returned are those computed by `Delta_Psi_TMM` from the slabs at the wavelength of the row. Missing: integer arrays, see `C21_fails_integer`. | C21_fails_integer: fails: with an array of integers, a delta of 180.5 degrees is returned as 180."},
  {"property": "C22", "status": "proved", "theorems": ["Verif.TMM.C22_clip_confined"], "note": "C22_clip_confined: at every point of a batch the returned amplitudes solve the boundary value problem in which films are exact, except those that are opaque at that very point, whose single pass attenuation is limited to e^-35."},
  {"property": "C23", "status": "proved", "theorems": ["Verif.TMM.C23_input_usable"], "note": "C23_input_usable: the array passed in is changed at most in the extinction coefficient of the first row, and evaluating again on the array left behind gives the same result and leaves it alone."},
  {"property": "C24", "status": "partial", "theorems": ["Verif.EMA.C24_dry_partial", "Verif.EMA.C24_fails_bruggeman"], "note": "C24_dry_partial: with no solvent the index is the material's own, for every rule. Missing: for the Bruggeman rule the real part of `(1-L) A² + L B²` has to be positive (it is not for metals); `C24_fails_bruggeman` shows the condition is necessary. | C24_fails_bruggeman: is false of the code for the Bruggeman rule: whenever the real part of `(1-L) A² + L B²` is negative, a layer containing no solvent at all does *not* keep its index; it gets the unphysical root `-L B² / (1-L)`."},
  {"property": "C25", "status": "partial", "theorems": ["Verif.EMA.C25_wet_partial", "Verif.EMA.C25_fails_bruggeman"], "note": "C25_wet_partial: with volume fraction 1 the index is the solvent's, for every rule. Missing: the Bruggeman rule needs the real part of `(1-L) B² + L A²` to be positive (`C25_fails_bruggeman`). | C25_fails_bruggeman: is false of the code for the Bruggeman rule when the real part of `(1-L) B² + L A²` is negative: the result solves `N² = -L A² / (1-L)`."},
  {"property": "C26", "status": "partial", "theorems": ["Verif.EMA.C26_self_partial", "Verif.EMA.C26_fails_bruggeman"], "note": "C26_self_partial: mixing a material with itself leaves it unchanged. Missing: the Bruggeman rule needs `k < n` (`C26_fails_bruggeman`). For the Maxwell-Garnett and linear rules any `n > 0`. | C26_fails_bruggeman: is false of the code for the Bruggeman rule and any material with `n < k`."},
  {"property": "C27", "status": "proved", "theorems": ["Verif.EMA.C27_symmetric", "Verif.EMA.C27_garnett_not_symmetric"], "note": "C27_symmetric: exchanging the materials and the volume fraction does not change linear or Bruggeman mixing, for any complex indices and any real `f`, `L`. | C27_garnett_not_symmetric: The Maxwell-Garnett rule is not symmetric, so C27 does not extend to it: exchanging the materials (indices 1 and 2, half each, `L = 1`) changes the value."},
  {"property": "C28", "status": "proved", "theorems": ["Verif.EMA.C28_bruggeman_equation"], "note": "C28_bruggeman_equation: the square of the returned index solves the Bruggeman equation."},
  {"property": "C29", "status": "proved", "theorems": ["Verif.EMA.C29_between", "Verif.EMA.C29_monotone"], "note": "C29_between: mixing transparent materials gives a real index between the two. | C29_monotone: more solvent moves the index towards the solvent's index, for every rule."},
  {"property": "C30", "status": "partial", "theorems": ["Verif.EMA.C30_passive_partial", "Verif.EMA.C30_fails_bruggeman"], "note": "C30_passive_partial: mixing two passive materials gives a passive material. Missing: under the Bruggeman rule both materials need `k < n` (`C30_fails_bruggeman` shows that metals can produce gain). | C30_fails_bruggeman: is false of the code for the Bruggeman rule: two passive materials can give an index with `k < 0` (an amplifying layer), here even at volume fraction 0."},
  {"property": "C31", "status": "partial", "theorems": ["Verif.EMA.C31_garnett_zero", "Verif.EMA.C31_bruggeman_zero_partial", "Verif.EMA.C31_fails_bruggeman_zero", "Verif.EMA.C31_garnett_one"], "note": "C31_bruggeman_zero_partial: `L = 0` turns Bruggeman into linear mixing. Missing: the linear mixture has to have a positive real dielectric constant; otherwise `C31_fails_bruggeman_zero`. | C31_fails_bruggeman_zero: With a negative real part the Bruggeman rule at `L = 0` returns index 0."},
  {"property": "C32", "status": "partial", "theorems": ["Verif.EMA.C32_usable_partial", "Verif.EMA.C32_fails_bruggeman_one", "Verif.EMA.C32_unknown_rule"], "note": "C32_usable_partial: for transparent materials, the mixed index is non-zero for every depolarisation factor accepted by the setter (`[0, 1]`). Missing: the Bruggeman rule at `L = 1`, where `C32_fails_bruggeman_one`. | C32_fails_bruggeman_one: is false of the code for the Bruggeman rule at the admissible value `L = 1`: every pair of materials is mixed to index 0."},
  {"property": "C33", "status": "partial", "theorems": ["Verif.Struct.C33_setter", "Verif.Struct.C33_invariant_partial", "Verif.Struct.C33_fails_constructor"], "note": "C33_invariant_partial: partial: if the constructor got a value in [0, 1] then every later value is in [0, 1]. Missing: the constructor does not check its argument, see `C33_fails_constructor`. | C33_fails_constructor: fails: the constructor stores any value, also one that the setter would reject, and no number of rejected assignments repairs it."},
  {"property": "C34", "status": "proved", "theorems": ["Verif.Struct.C34_concat", "Verif.Struct.C34_assoc", "Verif.Struct.C34_foreign", "Verif.Struct.C34_append"], "note": "C34_concat: `a | b` is a new structure with the components of `a` followed by those of `b`; nothing that existed before - in particular neither operand - is changed. | C34_assoc: bracketing does not matter. | C34_foreign: a foreign object raises ValueError and changes nothing that existed. | C34_append: `append` puts one component at the end: a component itself, or a slab of zero thickness, roughness and solvent fraction for a bare scatterer. It keeps the settings and touches nothing else."},
  {"property": "C35", "status": "partial", "theorems": ["Verif.Struct.C35_inplace_partial", "Verif.Struct.C35_fails_or", "Verif.Struct.C35_fails_example"], "note": "C35_inplace_partial: partial: the in-place form `s |= b` keeps all settings of `s`. | C35_fails_or: fails: the result of `a | b` always has the default settings, whatever was set on `a`. | C35_fails_example: fails on it: the reversed Bruggeman structure loses both settings."},
  {"property": "C36", "status": "partial", "theorems": ["Verif.Struct.C36_copy_partial", "Verif.Struct.C36_fails_reversed"], "note": "C36_copy_partial: partial: a copy has the same components, name and solvent; if the remaining settings are the defaults it has the same slabs. Missing: the other settings are not copied, see `C36_fails_reversed`. | C36_fails_reversed: fails: the copy of a reversed structure is not reversed."},
  {"property": "C37", "status": "proved", "theorems": ["Verif.Struct.C37_repeat"], "note": "C37_repeat: `component * n`."},
  {"property": "C38", "status": "proved", "theorems": ["Verif.Struct.C38_only_components", "Verif.Struct.C38_rejects", "Verif.Struct.C38_constructor", "Verif.Struct.C38_solvent"], "note": "C38_only_components: whatever sequence of appends, `|=`, `|`, constructions and copies is executed, no structure ever holds anything but components. | C38_rejects: `append` raises ValueError exactly for objects that are neither components nor dispersions, `|=` exactly for those that are not structures either; there is no other exception, and then nothing changes. What `append` accepts adds exactly one component at the end and leaves all other structures. | C38_constructor: the constructor keeps exactly the components, in order. | C38_solvent: The solvent can only be a scatterer or `None`."},
  {"property": "C39", "status": "proved", "theorems": ["Verif.Struct.C39_empty", "Verif.Struct.C39_ends", "Verif.Struct.C39_rows", "Verif.Struct.C39_interface"], "note": "C39_empty: an empty structure has no slabs. | C39_ends: if the first or the last component is not a `SlabSE`, ValueError is raised and the structure (also its wavelength) is unchanged. | C39_rows: one row per component, in order, with the current values of thickness, roughness and solvent fraction; the structure is not changed. | C39_interface: as soon as one component has an interface that is not the default, the rows are those of the micro-slab representation (refnx `_micro_slabs`), whatever the components themselves would return; thickness, roughness and solvent fraction are taken over, and without solvated rows the indices too."},
  {"property": "C40", "status": "proved", "theorems": ["Verif.Struct.C40_columns", "Verif.Struct.C40_index"], "note": "C40_columns: reversing keeps thicknesses and solvent fractions in reverse order, and each interface keeps its roughness: row `i >= 1` of the reversed representation has the roughness of row `n - i`. | C40_index: the indices come in reverse order too, if no layer is solvated or the solvent is given explicitly. (Without an explicit solvent the solvating medium changes with the direction, as documented.)"},
  {"property": "C41", "status": "proved", "theorems": ["Verif.Struct.C41_interior_only", "Verif.Struct.C41_interior_either"], "note": "C41_interior_only: solvation changes only the index of interior rows: the other columns are those of the components, the first and last rows have the index of their own material, and if no solvent fraction is positive then so have all rows. | C41_interior_either: for structures in either order: thickness and solvent fraction of a row are those of the component the light meets there, the first and last rows have the index of their own material, and if no solvent fraction is positive then so have all rows; the roughness belongs to the interface in front of the component (in a reversed structure it comes from the component before it)."},
  {"property": "C42", "status": "partial", "theorems": ["Verif.Struct.C42_backing_partial", "Verif.Struct.C42_fails_nondispersive"], "note": "C42_backing_partial: partial: without an explicit solvent, the result is that of naming the scatterer of the last slab (of the first one if the structure is reversed) as the solvent, when that scatterer is dispersive - as all scatterers of the package are. Missing: user defined scatterers with `dispersive = False`, see `C42_fails_nondispersive`. | C42_fails_nondispersive: fails for a scatterer with `dispersive = Fals: e`: as a layer it is evaluated with `complex(None)`, as a solvent with `complex(structure.wavelength)`."},
  {"property": "C43", "status": "partial", "theorems": ["Verif.Struct.C43_dry_partial", "Verif.Struct.C43_fails_bruggeman"], "note": "C43_dry_partial: partial: in a structure in which some layers are solvated (by an explicit solvent or by the backing medium; reversed or not), a layer with solvent fraction 0 keeps its own index, for passive materials and (with the Bruggeman rule) a weighted dielectric constant with positive real part. Missing: metals with the Bruggeman rule, see `C43_fails_bruggeman`. | C43_fails_bruggeman: fails: in this structure the dry metal layer does not keep its index."},
  {"property": "C44", "status": "proved", "theorems": ["Verif.Struct.C44_keyword", "Verif.Struct.C44_no_keyword", "Verif.Struct.C44_only_at_wavelength", "Verif.Struct.C44_effective", "Verif.Struct.C44_index"], "note": "C44_keyword: `slabs(wavelength=w)` is `structure.wavelength = w; slabs()`, for every structure whose ends are slabs. | C44_no_keyword: without the keyword the structure is unchanged. | C44_only_at_wavelength: the slabs depend on the layers, mixtures and solvent only through their indices at `structure.wavelength`. | C44_effective: a scatterer of the package is evaluated at the structure's wavelength, and at its own default wavelength if that is `None` or 0. | C44_index: every row of the slabs has the index of its material at the structure's wavelength: that of the scatterer of a slab, the mixture of the two scatterers of a mixed slab, and in the interior of a solvated structure the mixture of that with the solvent, evaluated at the same wavelength."},
  {"property": "C45", "status": "partial", "theorems": ["Verif.Struct.C45_align", "Verif.Struct.C45_negative", "Verif.Struct.C45_range_partial", "Verif.Struct.C45_fails_range", "Verif.Struct.C45_needs_two"], "note": "C45_range_partial: partial: indices beyond the last interface, or below `-n` for `n` slabs, raise RuntimeError. Missing: `-n` itself, which is not the index of an interface, is accepted, see `C45_fails_range`. | C45_fails_range: fails: `n` slabs have `n - 1` interfaces, but the index `-n` is accepted and treated like 0."},
  {"property": "C46", "status": "proved", "theorems": ["Verif.Disp.C46_interpolates", "Verif.Disp.C46_clamps", "Verif.Disp.C46_at_entries", "Verif.Disp.C46_between"], "note": "C46_interpolates: between neighbouring entries the index is the straight line between them. | C46_clamps: outside the table the index is that of the nearest end. | C46_at_entries: at a tabulated wavelength the index is the tabulated one. | C46_between: the interpolated index lies between the neighbouring entries."},
  {"property": "C47", "status": "partial", "theorems": ["Verif.Disp.C47_single_use_partial", "Verif.Disp.C47_fails_mutates", "Verif.Disp.C47_fails_second", "Verif.Disp.C47_fails_lists"], "note": "C47_single_use_partial: building one material from arrays no one reuses represents the given table (wavelengths in micron converted to nm), and the index arrays are not modified. Missing: the wavelength array is modified, see `C47_fails_mutates`. | C47_fails_mutates: is false of the code: the caller's wavelength array is multiplied by 1000 whenever it contains a non-zero entry. | C47_fails_second: is false of the code: building a second material from the same three arrays gives a different material (wavelengths another factor 1000 off) and also changes the first one. | C47_fails_lists: With Python lists the wavelength list is not even scaled but repeated 1000 times."},
  {"property": "C48", "status": "proved", "theorems": ["Verif.Disp.C48_involution", "Verif.Disp.C48_decreasing", "Verif.Disp.C48_physical", "Verif.Disp.C48_zero"], "note": "C48_involution: converting twice gives the value back. | C48_decreasing: conversion is strictly decreasing on positive values and keeps them positive. | C48_physical: wavelength in nm times photon energy in eV is `h c / e`, to three parts in ten thousand million. | C48_zero: zero is the only wavelength or energy without a partner."},
  {"property": "C49", "status": "proved", "theorems": ["Verif.Disp.C49_cauchy", "Verif.Disp.C49_decreasing"], "note": "C49_cauchy: the index is `A + B/l² + C/l⁴` with `l` the wavelength in micron; no extinction. | C49_decreasing: normal dispersion for non-negative `B`, `C`."},
  {"property": "C50", "status": "proved", "theorems": ["Verif.Disp.C50_square", "Verif.Disp.C50_decreasing", "Verif.Disp.C50_rises_across_resonance"], "note": "C50_square: with `u` the wavelength in microns and `ε = einf + Am u² / (u² - En²) - P u²`, the index exists exactly if `ε ≥ 0`, and it is then real, non-negative, and its square is `ε`. At the resonance `u = ±En` there is no finite index. | C50_decreasing: on either side of the resonance the index decreases with wavelength when `Am, P ≥ 0`. | C50_rises_across_resonance: Across the resonance the index may rise: `Am = 1`, `En = 1/2`, `P = 0`, `einf = 2`, from 400 nm to 1000 nm the square of the index rises from `2/9` to `10/3`."},
  {"property": "C51", "status": "proved", "theorems": ["Verif.Disp.C51_passive", "Verif.Disp.C51_index_passive", "Verif.Disp.C51_permute", "Verif.Disp.C51_additive", "Verif.Disp.C51_finite"], "note": "C51_passive: a Lorentz material absorbs: `Im ε ≥ 0` at every non-negative energy. | C51_index_passive: hence the refractive index of a Lorentz material has `n ≥ 0`, `k ≥ 0` at every positive wavelength. `hz`: on the negative real axis (possible only without broadening) numpy's imaginary zero is `+0`, because the real `Einf` is added last. | C51_permute: the order of the oscillators does not matter. | C51_additive: contributions of oscillators add. | C51_finite: the dielectric function is finite unless an undamped oscillator is hit on resonance."},
  {"property": "C52", "status": "proved", "theorems": ["Verif.Disp.C52_edge", "Verif.Disp.C52_finite", "Verif.Disp.C52_epsilon"], "note": "C52_edge: the imaginary part is 0 up to the gap and non-negative above it. | C52_finite: The imaginary part is finite at every positive energy when all broadenings are positive. | C52_epsilon: the imaginary part of `epsilon` is 0 up to the gap, and above it the sum of the Tauc-Lorentz terms `A En C (E - Eg)² / (E ((E² - En²)² + C² E²))`; it is never negative for non-negative parameters."},
  {"property": "C53", "status": "partial", "theorems": ["Verif.Disp.C53_finite_partial", "Verif.Disp.C53_fails_broad", "Verif.Disp.C53_fails_gap"], "note": "C53_finite_partial: the dielectric function is finite for `0 ≤ Eg`, `0 < En`, every positive energy except the gap itself, and broadenings up to `√2 En`. Missing: `√2 En < C < 2 En` (`C53_fails_broad`) and the gap energy (`C53_fails_gap`). | C53_fails_broad: is false of the code in the documented range `C < 2 En`: whenever `√2 En < C` for one oscillator, the dielectric function is not a number, at every energy. | C53_fails_gap: is false of the code at the gap energy itself (logarithm of zero)."},
  {"property": "C54", "status": "proved", "theorems": ["Verif.Disp.C54_absorbs", "Verif.Disp.C54_additive", "Verif.Disp.C54_finite", "Verif.Disp.C54_mean"], "note": "C54_absorbs: with non-negative amplitudes and centres, the imaginary part of the dielectric function is non-negative at every non-negative energy. | C54_additive: the contributions of two lists of oscillators add. | C54_finite: oscillators with a non-zero broadening give a finite result at every energy. | C54_mean: the real parts at the 2048 grid energies average to `Einf`."},
  {"property": "C55", "status": "proved", "theorems": ["Verif.Disp.C55_principal_root"], "note": "C55_principal_root: for oscillator materials the squared index is the dielectric function at the converted energy, `n ≥ 0`, and a non-negative imaginary part of ε gives `k ≥ 0` (`+0` on the negative real axis as for `C51_index_passive`)."},
  {"property": "C56", "status": "proved", "theorems": ["Verif.Disp.C56_lengths"], "note": "C56_lengths: construction fails, with `ValueError`, exactly when the list lengths differ; otherwise it pairs the i-th entries."},
  {"property": "C57", "status": "partial", "theorems": ["Verif.Disp.C57_load", "Verif.Disp.C57_physical", "Verif.Disp.C57_increasing_partial", "Verif.Disp.C57_fails_increasing"], "note": "C57_increasing_partial: partial: the wavelengths of every curve except `aluminium_oxide` increase strictly, so C46 applies to them. | C57_fails_increasing: fails: `aluminium_oxide` lists some wavelengths twice (2.9499 and 3.7594 micron), so its table is not strictly increasing."},
  {"property": "C58", "status": "partial", "theorems": ["Verif.Disp.C58_elementwise_partial", "Verif.Disp.C58_fails_const"], "note": "C58_elementwise_partial: for every dispersive model, evaluating an array gives the array of the values. Missing: for a wavelength independent `RI` a scalar is returned, see `C58_fails_const`. | C58_fails_const: is false for constant materials: the result is not an array."},
  {"property": "C59", "status": "partial", "theorems": ["Verif.Data.C59_mask_partial", "Verif.Data.C59_wrong_length", "Verif.Data.C59_fails_none"], "note": "C59_mask_partial: partial: with a boolean mask of the right length the four accessors give the points whose mask entry is True, in order and still aligned, and `len` is their number. Missing: `mask = None`, see `C59_fails_none`. | C59_fails_none: fails for the documented way of clearing a ma: sk: after `data.mask = None` the accessors return 2-d arrays."},
  {"property": "C60", "status": "proved", "theorems": ["Verif.Data.C60_setter"], "note": "C60_setter: after setting the data the accessors return exactly the given points, nothing is masked, no existing array is changed, and later modifications of any array that existed before are not seen."},
  {"property": "C61", "status": "partial", "theorems": ["Verif.Data.C61_reflect_partial", "Verif.Data.C61_idempotent", "Verif.Data.C61_fails_single"], "note": "C61_reflect_partial: partial: with `reflect_delta` every delta above 180 is replaced by 360 - delta and no other value is changed; the result does not exceed 180. Missing: a file with one point, see `C61_fails_single`. | C61_fails_single: fails for a file with a single point: reading what `save` wrote for a one point dataset with `reflect_delta` is a TypeError (the columns are scalars), although it can be read without."},
  {"property": "C62", "status": "partial", "theorems": ["Verif.Data.C62_unchanged_partial", "Verif.Data.C62_fails_reflect", "Verif.Data.C62_fails_dataset"], "note": "C62_unchanged_partial: partial: without `reflect_delta` no existing array changes, and neither do they if the columns come from a file. Missing: `reflect_delta` modifies the arrays passed in, see `C62_fails_reflect` and `C62_fails_dataset`. | C62_fails_reflect: fails: with `reflect_delta` the array of the caller is overwritten whenever it contains a value above 180. | C62_fails_dataset: fails: building a reflected dataset from another dataset changes the delta values the other one presents."},
  {"property": "C63", "status": "partial", "theorems": ["Verif.Data.C63_copy_partial", "Verif.Data.C63_fails_mask", "Verif.Data.C63_fails_convention"], "note": "C63_copy_partial: partial: the copy of a dataset without masked points presents the same points. Missing: masks and the delta convention are not copied, see `C63_fails_mask` and `C63_fails_convention`. | C63_fails_mask: fails: the copy presents points that are masked in the original. | C63_fails_convention: fails: the copy of a reflected dataset is not marked as reflected."},
  {"property": "C64", "status": "partial", "theorems": ["Verif.Data.C64_round_trip_partial", "Verif.Data.C64_fails_delimiter"], "note": "C64_round_trip_partial: partial: loading what was saved, with the default delimiter, gives all points (masked or not, and with nothing masked) of a dataset with at least one point. Missing: datasets with another delimiter, see `C64_fails_delimiter`. | C64_fails_delimiter: fails: `save` always separates by tabs, so a dataset with another delimiter (here at most 99 points, none of whose lines can be read as one number) cannot read its own file."},
  {"property": "C65", "status": "proved", "theorems": ["Verif.Data.C65_truncated"], "note": "C65_truncated: a file cut off after the header and `k >= 1` whole lines loads as the first `k` points."},
  {"property": "C66", "status": "proved", "theorems": ["Verif.Data.C66_header", "Verif.Data.C66_too_long"], "note": "C66_header: loading by name skips the leading lines whose first field is not a number, up to 100 of them, and reads every line after that. | C66_too_long: a file with more than 100 header lines is not read (a ValueError from the first of them that is not a comment and not a row of numbers)."},
  {"property": "C67", "status": "partial", "theorems": ["Verif.Data.C67_handle_partial", "Verif.Data.C67_fails_handle", "Verif.Data.C67_fails_refresh", "Verif.Parse.C67_fails_m2000", "Verif.Parse.C67_fails_m2000_first", "Verif.Parse.C67_fails_m2000_kinetic"], "note": "C67_handle_partial: partial: from an open handle, with `k < 100` header lines, the data lines are read in order, but without the first `k + 1` of them. Missing: those lines, see `C67_fails_handle`. | C67_fails_handle: fails: a saved dataset loaded from an open handle lacks the first two points. | C67_fails_refresh: fails: refreshing a dataset loaded from a saved file loses the first two points (or, if refnx opens the file for writing, raises and empties the file). | C67_fails_m2000: **C67 fails for static Woollam files**: whatever the file, the lines of the first measurement are not read from an open file, and the result is that of a file without them. | C67_fails_m2000_first: The same for a file of well-formed measurements: by name the first one is there, from the open file it is not. | C67_fails_m2000_kinetic: **C67 fails for kinetic Woollam files**: the first three rows are not read from an open file."},
  {"property": "C68", "status": "partial", "theorems": ["Verif.Data.C68_unique_partial", "Verif.Obj.Labelled.C68_fails_series"], "note": "C68_unique_partial: partial: iterating yields the distinct wavelengths in increasing order, each with its points in order; together these are all points. Missing: datasets whose columns are not arrays but pandas Series, as HORIBA files give (`C68_fails_series`). | C68_fails_series: **C68 fails for datasets of HORIBA files**: two points are read and presented, but iterating over the wavelengths raises KeyError."},
  {"property": "C69", "status": "proved", "theorems": ["Verif.Parse.C69_areas", "Verif.Parse.C69_single", "Verif.Parse.C69_position"], "note": "C69_areas: **C69.** A file of a single time is divided into contiguous areas that cover every row once, each within the tolerance of its first row, and each area becomes one dataset. | C69_single: **C69**, without positions (or with a single one): the whole file is one dataset. | C69_position: **C69.** Each area becomes one dataset, whose reported position is that of its rows."},
  {"property": "C70", "status": "partial", "theorems": ["Verif.Parse.C70_series_partial", "Verif.Parse.C70_fails_places", "Verif.Parse.C70_fails_jitter", "Verif.Parse.C70_fails_mapping"], "note": "C70_series_partial: **C70**, for files in which the position does not change within a time: every time gives one dataset, made of all rows of that time and labelled with it. *Missing*: files in which a time has rows at several positions; for them the claim is false, see `C70_fails_places` and `C70_fails_jitter`. | C70_fails_places: **C70 fails for mapping time series**: as soon as the rows of one time fall into two areas, only the last of them is labelled with the time and naming the others raises KeyError; the file cannot be read. | C70_fails_jitter: **C70 fails silently when the position jitters**: take a file with two times, measured at one place but with positions that are not all exactly equal (within the tolerance). One dataset is returned: the data of the first time labelled as the second. The data of the second time is gone. | C70_fails_mapping: **C70 fails for mapping time series**: a file begins with the rows of one time, measured at different places (one of them further from the first than the tolerance), and goes on with other times. It cannot be read: KeyError."},
  {"property": "C71", "status": "proved", "theorems": ["Verif.Parse.C71_averages", "Verif.Parse.C71_order", "Verif.Parse.C71_code", "Verif.Parse.C71_open"], "note": "C71_averages: **C71.** The summary of an area has one point per distinct angle and wavelength, in order, with the arithmetic means of the repeats. | C71_order: **C71.** The summary is determined by these demands and does not depend on the order of the rows. | C71_code: **C71**, for the code: rows in another order give the same summary. | C71_open: **C71**, for the file: whatever the table, every dataset that is read consists of averages of rows of the file."},
  {"property": "C72", "status": "partial", "theorems": ["Verif.Parse.C72_circle_partial", "Verif.Parse.C72_fails_wrap"], "note": "C72_circle_partial: **C72**, for repeats within half a turn of each other: the averaged delta is no further on the circle from any repeat than two of the repeats are from each other. *Missing*: repeats on both sides of 0/360, for which it is false (`C72_fails_wrap`). | C72_fails_wrap: **C72 fails**: repeats at 1 and 359 degrees, 2 degrees apart, are averaged to 180."},
  {"property": "C73", "status": "proved", "theorems": ["Verif.Parse.C73_custom_round", "Verif.Parse.C73_exact"], "note": "C73_custom_round: **C73.** `custom_round` fails only for base 0; otherwise its result is a multiple of a hundredth, within half a hundredth of a multiple of the base, and within base/2 + 0.005 of the input. | C73_exact: **C73.** If the base is a whole number of hundredths the result is exactly a multiple of the base, and multiples of the base are left alone."},
  {"property": "C74", "status": "proved", "theorems": ["Verif.Parse.C74_blocks", "Verif.Parse.C74_only"], "note": "C74_blocks: **C74.** In a file made of blank-line terminated blocks (after lines that start no block), each block gives one entry under its title, with its line number: nothing, the line, or the list of lines. A later block with the same title replaces an earlier one. | C74_only: **C74.** There are no other entries."},
  {"property": "C75", "status": "proved", "theorems": ["Verif.Parse.C75_cutoffs", "Verif.Parse.C75_file"], "note": "C75_cutoffs: **C75.** The points are those with a wavelength strictly between the cut-offs (either may be infinite), in the order of the file, all with the angle of incidence. | C75_file: **C75**, for the whole reader: a file with a DATA block of a heading and at least one row, and an angle of incidence; the table read is exactly the DATA block, and the points are its rows between the cut-offs."},
  {"property": "C76", "status": "proved", "theorems": ["Verif.Parse.C76_static", "Verif.Parse.C76_empty", "Verif.Parse.C76_open", "Verif.Parse.C76_mode"], "note": "C76_static: **C76.** Reading a static file gives the wavelength, angle, psi and delta of the measurements with index 0, m, 2m, ..., in order. | C76_empty: **C76.** A file without measurements is refused. | C76_open: **C76**, for the whole reader: a file whose third line is `nm`, with a good header. | C76_mode: **C76.** Any other third line is refused with ValueError."},
  {"property": "C77", "status": "partial", "theorems": ["Verif.Parse.C77_kinetic_partial", "Verif.Parse.C77_fails_close_times", "Verif.Parse.C77_open"], "note": "C77_kinetic_partial: **C77**, for files whose kept times differ after rounding to a tenth of a second: each time whose rank is a multiple of `take_every` gives one dataset, under its time in seconds (to 0.05 s), with every m-th of its points. There are no other datasets. *Missing*: times closer than a tenth of a second, for which it is false (`C77_fails_close_times`). | C77_fails_close_times: **C77 fails for close times**: of two measurements 0.03 s apart only one is returned."},
  {"property": "C78", "status": "proved", "theorems": ["Verif.Parse.C78_inverse", "Verif.Parse.C78_range"], "note": "C78_inverse: **C78.** Psi and delta are recovered from N = cos 2psi, C = sin 2psi cos delta, S = sin 2psi sin delta, whatever the sign of zero. | C78_range: **C78.** Whatever N, C, S: psi, if it is a number, is in [0, 90] and delta in [0, 360); psi is not a number only for N outside [-1, 1], delta only for N = -1."},
  {"property": "C79", "status": "partial", "theorems": ["Verif.Parse.C79_static", "Verif.Parse.C79_dynamic_partial", "Verif.Parse.C79_last", "Verif.Parse.C79_fails_equal_times", "Verif.Parse.C79_unknown"], "note": "C79_dynamic_partial: **C79** (dynamic files with distinct times). Under each time there is a dataset with as many points as there are wavelengths, each with its own N, C, S and the nominal angle; there is nothing else. Missing: files in which a time occurs twice, where a dataset is lost (`C79_fails_equal_times`, `C79_last`). | C79_fails_equal_times: **C79 is false of the code when a time occurs twice.** Of the lines with one time only the last can be had from the result: a dataset found under the time of two lines is not that of the earlier line, as soon as their points differ somewhere, and there are fewer times to ask for than datasets in the file."},
  {"property": "C80", "status": "partial", "theorems": ["Verif.Obj.C80_abs_partial", "Verif.Obj.C80_partial", "Verif.Obj.C80_fails"], "note": "C80_abs_partial: up to one and a half turns, apart from the sign. | C80_partial: for angles at most one turn apart. Missing: angles further apart, for which the claim is false (`C80_fails`). | C80_fails: fails for all other angles: the value is negative, however far they are apart on the circle."},
  {"property": "C81", "status": "partial", "theorems": ["Verif.Obj.C81_residuals", "Verif.Obj.C81_zero_partial", "Verif.Obj.C81_fails"], "note": "C81_zero_partial: for data with delta between 0 and 360 and an offset of less than one turn, all residuals are zero exactly if the model reproduces psi exactly and delta modulo 360, at each unmasked point. Missing: other offsets and data, for which this is false (`C81_fails`). | C81_fails: fails in general: with delta given as -540, or with an offset of 720, a model that reproduces the measurement (delta 180 modulo 360) has residual -360."},
  {"property": "C82", "status": "partial", "theorems": ["Verif.Obj.C82_sum", "Verif.Obj.C82_nonneg", "Verif.Obj.C82_equiv_partial", "Verif.Obj.C82_fails"], "note": "C82_equiv_partial: chi-squared does not depend on which representative of delta is in the data, as long as these are between half a turn below and one and a half turns above the offset. Missing: other representatives, for which this is false (`C82_fails`). | C82_fails: fails in general: replacing delta = 180, which fits exactly, by the equivalent -540 changes chi-squared from 0 to 129600."},
  {"property": "C83", "status": "proved", "theorems": ["Verif.Obj.C83_formula", "Verif.Obj.C83_vector", "Verif.Obj.C83_chisqr", "Verif.Obj.C83_not_finite"], "note": "C83_formula: the log-likelihood is -1/2 the sum, over psi and delta of all unmasked points, of res²/s² and, if weighted, log(2 pi s²), with s² = 1 (+ exp(2 lnsigma) model²). | C83_vector: for a vector that can be set it is the log-likelihood with these values. | C83_chisqr: unweighted and without lnsigma it is -chisqr/2. | C83_not_finite: if a value of the model is not finite, a RuntimeError is raised."},
  {"property": "C84", "status": "partial", "theorems": ["Verif.Obj.C84_fails", "Verif.Obj.C84_partial"], "note": "C84_fails: fails for objectives as they are by default (: `data.weighted` is False): the likelihood never decreases when lnsigma is raised, and it strictly increases if some model value and its residual are not zero. A fit drives lnsigma to its upper bound. | C84_partial: for weighted objectives (the user sets `data.weighted = True`): as soon as some psi of the model is not zero (always the case for finite psi), the likelihood for large lnsigma is below any value. Missing: unweighted objectives, for which the claim is false (`C84_fails`)."},
  {"property": "C85", "status": "partial", "theorems": ["Verif.Obj.C85_fails", "Verif.Obj.C85_iff_partial", "Verif.Obj.C85_fails_example"], "note": "C85_fails: fails: `logp_extra` and the log-probability of the model never matter. | C85_iff_partial: holds only where `logp_extra` has nothing to add: for a finite prior and likelihood, the posterior is prior + likelihood + `logp_extra` exactly if `logp_extra` is 0. Missing: everything else, for which the claim is false. | C85_fails_example: fails, concretely: an objective whose `logp_extra` is the constant 1, with prior 0 and log-likelihood -50, has log-posterior -50."},
  {"property": "C86", "status": "partial", "theorems": ["Verif.Obj.C86_none", "Verif.Obj.C86_varying", "Verif.Obj.C86_all_partial", "Verif.Obj.C86_places", "Verif.Obj.C86_places_unweighted", "Verif.Obj.C86_wrong_length", "Verif.Obj.C86_fails"], "note": "C86_all_partial: a vector as long as all parameters (repeats counted) sets all of them and nothing else; reading them gives the vector if no parameter occurs twice with different values. Missing: without that, the last value wins (`C86_fails`). | C86_fails: fails for full vectors if a parameter occurs: twice: the vector [1, 2] is accepted, the parameter gets 2 and reading back gives [2, 2]."},
  {"property": "C87", "status": "proved", "theorems": ["Verif.Obj.C87_outside", "Verif.Obj.C87_inside", "Verif.Obj.C87_iff"], "note": "C87_outside: if a varying parameter has no finite log-probability, logpost is -inf, and the model is not evaluated: nothing changes but the parameters, and no external function of the model matters. | C87_inside: otherwise it is the sum of the log-probabilities of the varying parameters and the log-likelihood. | C87_iff: logpost is -inf exactly if the vector can be set and the prior is not finite."},
  {"property": "C88", "status": "proved", "theorems": ["Verif.Obj.C88_covar"], "note": "C88_covar: covar leaves all parameters as they were (and everything else but the wavelengths of structures), whatever vectors the numerical differentiation tries, whatever exceptions the model or the differentiation raise, and whether or not covar itself succeeds."},
  {"property": "C89", "status": "partial", "theorems": ["Verif.Obj.C89_fails", "Verif.Obj.C89_partial"], "note": "C89_fails: fails: an objective whose model fits its data exactly (both residuals are 0) has a residual above 0 once another objective has been made with the same model and flipped data. | C89_partial: if the second objective has another model, or data in the same delta convention. Missing: a shared model with data of different conventions, for which the claim is false (`C89_fails`)."},
  {"property": "C90", "status": "proved", "theorems": ["Verif.Obj.C90_function", "Verif.Obj.C90_history", "Verif.Obj.C90_full_vector"], "note": "C90_function: the residuals, chi-squared, log-likelihood, log-prior and log-posterior for a vector are the same (value or exception) in any two states that agree on fixed parameters, settings and data; the values of the varying parameters and the wavelength a structure was last evaluated at do not matter. | C90_history: the values for a vector do not change through any history of calls - evaluations and plots - on any objectives whose varying parameters vary in this objective too, if the vectors passed do not set fixed parameters (they have the length of the varying parameters, or a length that is rejected). | C90_full_vector: a vector for all parameters sets all of them, and its values do not change through any history at all on objectives that have no parameters this one does not have."},
  {"property": "C91", "status": "partial", "theorems": ["Verif.Obj.C91_iff", "Verif.Obj.C91_partial", "Verif.Obj.C91_fails"], "note": "C91_partial: if no point is masked. Missing: masked points, for which the claim is false (`C91_fails`). | C91_fails: fails with a masked point: one point enters the residuals, `npoints` is 2."},
  {"property": "C92", "status": "proved", "theorems": ["Verif.Obj.C92_varying", "Verif.Obj.C92_which", "Verif.Obj.C92_transform", "Verif.Obj.C92_short", "Verif.Obj.C92_setp"], "note": "C92_varying: the varying parameters are the parameters that vary, each once, in the order in which they first occur among the parameters of the objective. | C92_which: a parameter varies in the fit if it may vary and is lnsigma, the model's offset of delta, or a parameter of the structure. | C92_transform: the result has one value for each varying parameter, the inverse CDF of its own bounds at the value of `u` in its place; values of `u` beyond are ignored and no parameter changes. | C92_short: with fewer values than varying parameters an IndexError is raised. | C92_setp: setting the transformed values gives each varying parameter its own one."},
  {"property": "C93", "status": "proved", "theorems": ["Verif.TMM.C93_reciprocity", "Verif.TMM.C93_transmittance"], "note": "C93_reciprocity: amplitudes transmitted through a stack and through the reversed stack, at angles related by Snell's law, for any complex indices: `n₀ cos θ t' = n_b cos θ' t`. | C93_transmittance: for transparent outer media: the transmitted fraction of power is the same both ways."},
  {"property": "C94", "status": "partial", "theorems": ["Verif.RModel.C94_plot_partial", "Verif.RModel.C94_fails_reverse", "Verif.RModel.C94_fails_reverse_example", "Verif.RModel.C94_fails_error"], "note": "C94_plot_partial: partial: plotting changes nothing but `wavelength` and `reverse_structure`; if the structure was not reversed and plotting succeeds, models of the structure give the same values as before. Missing: the wavelength is not restored, a reversed structure is un-reversed (`C94_fails_reverse`), and if plotting raises, the structure stays reversed (`C94_fails_error`). | C94_fails_reverse: fails: plotting a reversed structure leaves it not reversed. | C94_fails_reverse_example: Non-vacuity: plotting the reversed two media structure succeeds. | C94_fails_error: fails: plotting an empty structure raises ValueError and leaves it reversed and with another wavelength."},
  {"property": "C95", "status": "partial", "theorems": ["Verif.Disp.C95_name_partial", "Verif.Disp.C95_fails_default"], "note": "C95_name_partial: an explicit name is kept. Missing: the default taken from the file name. | C95_fails_default: is false of the code: without an explicit name the material does not get the name of its file (the part of the last path component before the first dot), whatever the file."},
  {"property": "C96", "status": "proved", "theorems": ["Verif.Disp.C96_gauss", "Verif.Disp.C96_lorentz"], "note": "C96_gauss: a Gauss dielectric function satisfies the reality condition at every energy. | C96_lorentz: so does a Lorentz dielectric function."},
  {"property": "C97", "status": "partial", "theorems": ["Verif.Disp.C97_transparent_partial", "Verif.Disp.C97_fails_aluminium_oxide"], "note": "C97_transparent_partial: partial: air, void, dmso, silica and the two polymers have `0 ≤ k ≤ 0.01` at every wavelength. Missing: `aluminium_oxide`, see `C97_fails_aluminium_oxide`. | C97_fails_aluminium_oxide: fails: the curve bundled as `aluminium_oxide` absorbs like a metal - it is the curve of aluminium; its extinction coefficient is at least 1.976 at every wavelength."},
  {"property": "C98", "status": "partial", "theorems": ["Verif.Data.C98_new_partial", "Verif.Data.C98_fails_setter", "Verif.Data.C98_fails_refresh"], "note": "C98_new_partial: partial: a newly constructed dataset is consistent. Missing: setting the data or refreshing does not update the flag, see `C98_fails_setter`, `C98_fails_refresh`. | C98_fails_setter: fails: after setting new data the flag of a reflected dataset remains. | C98_fails_refresh: fails: refreshing a reflected dataset brings back deltas above 180 while the flag remains."},
  {"property": "C99", "status": "proved", "theorems": ["Verif.Parse.C99_header", "Verif.Parse.C99_refuses"], "note": "C99_header: **C99.** A header `VASEmethod[k1=v1, k2=v2, ...]` becomes metadata with exactly these values. | C99_refuses: **C99.** An entry without \"=\" makes the file unreadable: ValueError."},
  {"property": "C100", "status": "proved", "theorems": ["Verif.Obj.C100_inverse", "Verif.Obj.C100_covar"], "note": "C100_inverse: the linear algebra of covar inverts `Jᵀ J`, whichever way the Jacobian was obtained, as soon as no singular value is discarded. | C100_covar: covar returns the inverse of `Jᵀ J`, where `J` is the Jacobian of the residuals with respect to the varying parameters at their current values, times chi-squared over the number of residuals in excess of parameters if the objective is not weighted. This is so whether or not a parameter is zero, i.e. whether or not the Jacobian was taken in scaled parameters, and is the covariance before the call."},
  {"property": "C101", "status": "partial", "theorems": ["Verif.Obj.C101_no_effect_partial", "Verif.Obj.C101_only", "Verif.Obj.C101_fails_correlated"], "note": "C101_no_effect_partial: a parameter on which no residual depends (its column of the Jacobian is zero) makes covar raise LinAlgError. Missing: combinations of parameters on which no residual depends, see C101_fails_correlated. | C101_fails_correlated: fails for parameters that cannot be told apar: t: the residuals depend on `3 x + 4 y` only, so that any change of one parameter can be undone by the other, yet covar raises nothing and gives them variances 9/625 and 16/625."},
  {"property": "C102", "status": "partial", "theorems": ["Verif.Obj.C102_partial", "Verif.Obj.C102_fails", "Verif.Obj.C102_fails_equal"], "note": "C102_partial: with more residuals than varying parameters, or if weighted, the covariance is symmetric and positive semidefinite; no variance is negative and none is zero unless chi-squared is. Missing: unweighted objectives with at most as many residuals as varying parameters, see C102_fails. | C102_fails: fails for an unweighted objective with fewer: residuals than varying parameters: whenever covar returns finite numbers and the fit is not perfect, every variance is negative. | C102_fails_equal: with as many residuals as varying parameters an unweighted objective has no finite covariance."},
  {"property": "C103", "status": "partial", "theorems": ["Verif.Params.C103_slabs_partial", "Verif.Params.C103_model_partial", "Verif.Params.C103_fails_ri", "Verif.Params.C103_fails_thick"], "note": "C103_slabs_partial: partial: whatever a user does with components and structures (making components, appending and removing them, changing values, solvent and settings), short of replacing an attribute of a component, the slabs of each structure at each wavelength are determined by the values of the parameters it lists. Missing: replacing an attribute of a component, see `C103_fails_ri` and `C103_fails_thick`. | C103_model_partial: partial: likewise psi and delta of a `ReflectModelSE` are determined by the values of the parameters it lists. Missing: replacing an attribute of a component. | C103_fails_ri: fails after `slab.ri = Cauchy(A, B, C)`, here: for the backing medium: whatever the slab was made with, `A` is not listed (if it was not before), and changing it changes the slabs. | C103_fails_thick: fails after `slab.thick = p` with another par: ameter: it is not listed, and changing it changes the slabs."},
  {"property": "C104", "status": "proved", "theorems": ["Verif.Params.C104_wrong_length", "Verif.Params.C104_sets", "Verif.Params.C104_function"], "note": "C104_wrong_length: a vector whose length is neither the number of varying parameters nor that of all parameters is a ValueError; no parameter changes. | C104_sets: with a vector for the varying parameters these have the values passed afterwards, no other parameter is changed, and calling the model again without a vector gives the same result. | C104_function: what `model(x, p)` returns (value or exception) depends on the vector and on the values of the fixed parameters that the model lists, on no other state; components are as constructors make them."},
  {"property": "C105", "status": "partial", "theorems": ["Verif.Params.C105_plot_partial", "Verif.Params.C105_curves_partial", "Verif.Params.C105_pvals", "Verif.Params.C105_fails"], "note": "C105_plot_partial: partial: if `structure.plot()` with samples succeeds, every parameter has the value it had before, and the last curve is the profile for these values. Missing: a sample whose profile raises, see `C105_fails`. | C105_curves_partial: partial: before the last curve there is one for each sample, in their order: the profile with the varying parameters at the values of the sample and all others as they were. Missing: as above. | C105_fails: fails: if the profile for a sample raises, the parameters stay at the values of the sample."},
  {"property": "C106", "status": "proved", "theorems": ["Verif.Disp.C106_lorentz", "Verif.Disp.C106_tauc_lorentz", "Verif.Disp.C106_tauc_lorentz_unique", "Verif.Disp.C106_lorentz_unique"], "note": "C106_lorentz: Lorentz: for non-negative broadenings there is one function, holomorphic above the real axis, real in the time domain and tending to `Einf`, whose boundary value is the dielectric function at every energy where this is finite. | C106_tauc_lorentz: Tauc-Lorentz: for oscillators of positive width and energy and a gap `Eg ≥ 0` there is one function, holomorphic above the real axis, real in the time domain and tending to `Einf`, whose boundary value is the dielectric function at every positive energy where this is finite (see C53). | C106_tauc_lorentz_unique: Tauc-Lorentz: the real part the code computes is the only one that causality admits. If `G` is any causal function with boundary values everywhere and the imaginary part of `epsilon`, then its boundary value is `epsilon`, real part included (for a positive gap, in the range of C53). | C106_lorentz_unique: Lorentz: likewise, for positive broadenings and energies."},
  {"property": "C107", "status": "partial", "theorems": ["Verif.Obj.C107_wavelength", "Verif.Obj.C107_aoi", "Verif.Obj.C107_empty", "Verif.Obj.C107_fitted_partial", "Verif.Obj.C107_fails_integer"], "note": "C107_fitted_partial: partial: where a curve passes the wavelength and angle of a data point, it shows the model values the residuals of that point are computed from. Missing: data of integers, for which the residuals use truncated values (`C107_fails_integer`). | C107_fails_integer: fails for integers: the residuals are computed from a delta of 180, the plot shows 180.5 at the wavelength and angle of the data."},
  {"property": "C108", "status": "partial", "theorems": ["Verif.Obj.C108_aoi", "Verif.Obj.C108_aoi_succeeds", "Verif.Obj.C108_wavelength_partial", "Verif.Obj.C108_fails_angles"], "note": "C108_wavelength_partial: partial: over wavelengths there is one curve, extending 50 nm to both sides, for the angle of the first data point; so there is a curve for every data point if all angles are equal. Missing: several angles (`C108_fails_angles`). | C108_fails_angles: fails for several angles: data at the angles 0 and 60, and over wavelengths one curve, for the angle 0."},
  {"property": "C109", "status": "partial", "theorems": ["Verif.Parse.C109_text", "Verif.Parse.C109_fails_short", "Verif.Parse.C109_name", "Verif.Parse.C109_series", "Verif.Parse.C109_map_partial", "Verif.Parse.C109_fails_return"], "note": "C109_fails_short: **C109 fails** between files with short names: two files whose names have at most 23 characters give datasets with the same name. | C109_map_partial: **C109** for maps, partial: datasets with different reported positions have different names. Missing: different visits of the same place, see `C109_fails_return`. | C109_fails_return: **C109 fails** if the stage comes back: the first and the third dataset have the same name."},
  {"property": "C110", "status": "proved", "theorems": ["Verif.RModel.C110_curves"], "note": "C110_curves: each curve `plot_structure` draws shows the profile of the structure at the wavelength of its label, in the orientation asked for, whatever the wavelength and the orientation of the structure are; the curves are those for the wavelengths of `PlotWavelengths`; and it succeeds if all these profiles exist."},
  {"property": "C111", "status": "proved", "theorems": ["Verif.TMM.C111_normal"], "note": "C111_normal: at normal incidence there is no difference between the polarisations: psi is 45 and delta 180 degrees (plus offset) for every stack and wavelength - unless nothing is reflected, and neither has a value."},
  {"property": "C112", "status": "proved", "theorems": ["Verif.TMM.C112_invert", "Verif.TMM.C112_unique"], "note": "C112_invert: the index of a bare substrate follows from one pair (psi, delta) measured at oblique incidence, by the formula for the pseudo-dielectric function. | C112_unique: so different substrates give different data: if two passive substrates give the same psi and delta (up to a full turn, in either convention, or both none) at one wavelength and one oblique angle, they have the same index there."},
  {"property": "C113", "status": "proved", "theorems": ["Verif.TMM.C113_psi_le", "Verif.TMM.C113_brewster"], "note": "C113_psi_le: no bare surface, however absorbing, gives psi above 45 degrees. | C113_brewster: the Brewster angle of a bare transparent substrate. With the angle of incidence below it, delta is 180 degrees; above it, delta is 0 (or 360, which is the same); and exactly at it psi is 0 and delta has no value. (`n₀ ≠ nb`; below the critical angle if there is one.)"},
  {"property": "C114", "status": "proved", "theorems": ["Verif.TMM.C114_amplitudes", "Verif.TMM.C114_psi_delta"], "note": "C114_amplitudes: reflection from a stack is periodic in the thickness of a transparent film: adding a multiple of `λ / (2 n cos θ')` changes no reflection amplitude and at most the sign of the transmission amplitude (`n cos θ' = √(n² - (n₀ sin θ)²)`). | C114_psi_delta: for the observables: psi and delta are periodic in the thickness of a transparent film."},
  {"property": "C115", "status": "proved", "theorems": ["Verif.TMM.C115_amplitudes", "Verif.TMM.C115_psi_delta"], "note": "C115_amplitudes: multiplying all refractive indices and the wavelength by the same factor changes no amplitude. | C115_psi_delta: for the observables: psi and delta depend on the ratios of the indices only, if the wavelength is scaled along; so a stack in a fronting medium of index `n₀` looks like one with all indices divided by `n₀` in vacuum at wavelength `λ / n₀`."},
  {"property": "C116", "status": "partial", "theorems": ["Verif.TMM.C116_amplitudes_partial", "Verif.TMM.C116_psi_delta_partial", "Verif.TMM.C116_fails_total_reflection", "Verif.TMM.C116_fails_clip"], "note": "C116_amplitudes_partial: the amplitudes depend continuously on fronting index, angle, wavelength, thicknesses and indices. Missing: a transparent backing beyond its critical angle whose absorption is varied (there the claim is false: `C116_fails_total_reflection`), and such films if they attenuate by 35 nepers or more (`C116_fails_clip`). | C116_psi_delta_partial: for the observables, same restriction: where light is reflected, psi is continuous; where `r_p` does not vanish either, so is delta, as an angle; it is continuous as a number if it is not at the ends of the range 0..360, or if it is reflected into 0..180. | C116_fails_total_reflection: fails: beyond the critical angle of a transparent backing medium (`n₀ = 2`, 45 degrees, index 1) psi or delta, even as an angle, jumps as soon as it absorbs the least bit. | C116_fails_clip: fails at a transparent film beyond its critic: al angle (index 1 between media of index 2, 45 degrees) that attenuates by 40 nepers: psi or delta, even as an angle, jumps as soon as the film absorbs the least bit, because the clip acts on absorbing films only."},
  {"property": "C117", "status": "proved", "theorems": ["Verif.RModel.C117_slabs", "Verif.RModel.C117_model"], "note": "C117_slabs: slabs: the slab array of a structure describes the stack that light meets. | C117_model: calling a model on an array of (wavelength, angle) gives for every point psi and delta of the unique solution of Maxwell's boundary value problem for the stack that light of this wavelength meets in the structure, with the offset of the model and, if `flip` is set, delta reflected to 0..180."},
  {"property": "C118", "status": "partial", "theorems": ["Verif.Obj.C118_fails", "Verif.Obj.C118_identity_partial", "Verif.Obj.C118_fails_example"], "note": "C118_fails: fails: residuals, chi-squared, likelihood and posterior do not depend on `transform`. | C118_identity_partial: partial: the residuals are those of the transformed model and data if the transform leaves the four columns alone. Missing: every other transform, for which the claim is false. | C118_fails_example: fails, concretely: doubled angles differ by 20 degrees, the residual is 10."},
  {"property": "C119", "status": "partial", "theorems": ["Verif.Obj.C119_arrays", "Verif.Obj.C119_file", "Verif.Obj.C119_fails_other", "Verif.Obj.C119_subclass_partial", "Verif.Obj.C119_fails_subclass"], "note": "C119_fails_other: fails: an object that `DataSE` does not know (a data frame, say) gives an objective without points: no residuals and chi-squared 0, whatever the model. | C119_subclass_partial: partial: an instance of a subclass of `DataSE` is used like a `DataSE` if nothing is masked and delta is not reflected. Missing: masked or reflected data, see `C119_fails_subclass`. | C119_fails_subclass: fails: an instance of a subclass of `DataSE` loses its mask and its convention for delta. In the first world the only point is masked, but is compared; in the second the model fits the data, which are reflected, but the objective reports a residual above 0."},
  {"property": "C120", "status": "proved", "theorems": ["Verif.Obj.C120_same", "Verif.Obj.C120_order", "Verif.Obj.C120_together"], "note": "C120_same: two datasets that present the same points give the same residuals, chi-squared and likelihood: points that are masked have no effect, nor has where the columns are stored. (The flag `weighted` of data, which only the user can set, counts for the likelihood.) | C120_order: the order of the points does not matter: chi-squared is finite for the one order exactly if for the other, and then the same; so is the likelihood. | C120_together: chi-squared and likelihood of two datasets together are the sums of those of the datasets."},
  {"property": "C121", "status": "partial", "theorems": ["Verif.Obj.C121_chisqr_partial", "Verif.Obj.C121_residuals_partial", "Verif.Obj.C121_fails"], "note": "C121_chisqr_partial: partial: if chi-squared is finite and the deltas of the data are between half a turn below and one and a half turns above the offset, chi-squared is a continuous function of the model. Missing: deltas further away, for which chi-squared does not use the distance on the circle (`C82_fails`); total reflection by a transparent backing medium, where chi-squared jumps (`C121_fails`). | C121_residuals_partial: partial: if the residuals are finite and the deltas of the data between the offset and one turn above it, every residual is a continuous function of the model, also where delta wraps around. Missing: as for `C121_chisqr_partial`. | C121_fails: fails at total reflection: chi-squared is 0 for a transparent backing medium and finite for all absorbing ones, but does not tend to 0 with the absorption."},
  {"property": "C122", "status": "partial", "theorems": ["Verif.EMA.C122_unique_partial", "Verif.EMA.C122_fails", "Verif.EMA.C122_fails_docstring"], "note": "C122_unique_partial: partial: for passive materials the mixed index is passive and is the only passive index whose square solves the equation of the rule. Missing: metals (`k ≥ n`) under the Bruggeman rule, where the code may return a solution that amplifies (`C122_fails`), and `L = 1` under this rule (`C32_fails_bruggeman_one`). | C122_fails: fails for metals under the Bruggeman rule: a layer of index 1 + 2i without any solvent. Its own index solves the equation; the code returns an index with negative `k`. | C122_fails_docstring: the formula documented at `StructureSE.slabs` is not that of the code (nor a solution of the Bruggeman equation): between transparent materials it gives a smaller dielectric constant, unless the volume fraction is 1."},
  {"property": "C123", "status": "proved", "theorems": ["Verif.TMM.C123_refines", "Verif.TMM.C123_alone", "Verif.TMM.C123_maxwell", "Verif.TMM.C123_shapes", "Verif.TMM.C123_delta_psi"], "note": "C123_refines: **C123.** The program as it is written, with arrays of shape (layers, points), gives in each column what the point by point description gives, and raises the same exceptions. | C123_alone: **C123.** Each column of the result is what the same call with this angle and this wavelength alone gives, and the call with all of them succeeds exactly when each of these calls does. | C123_maxwell: **C123.** In each column the amplitudes `r` and `t` of the array program solve Maxwell's boundary value problem of the stack at that angle and wavelength, and nothing else does. | C123_shapes: **C123.** Numbers of angles and wavelengths that differ, neither of them one, are refused. | C123_delta_psi: **C123.** `Delta_Psi_TMM` as it is written gives psi and delta of the point by point description, angle by angle, leaves the same array `layers` behind and raises the same exceptions."},
  {"property": "C124", "status": "proved", "theorems": ["Verif.Params.C124_cauchy", "Verif.Params.C124_sellmeier", "Verif.Params.C124_lorentz", "Verif.Params.C124_tauc", "Verif.Params.C124_gauss", "Verif.Params.C124_model"], "note": "C124_cauchy: a `Cauchy` material takes `A`, `B` and `C` (wavelength in micron) from its three parameters. | C124_sellmeier: a `Sellmeier` material takes amplitude, energy, pole and offset from its four parameters. | C124_lorentz: a `Lorentz` material with the parameters `o.1` (amplitude), `o.2.1` (broadening) and `o.2.2` (energy) of each oscillator and `einf`: off resonance or with damping the squared index is `einf + Σ Am / (En² - E² - i Br E)` at the photon energy `E` in eV. | C124_tauc: a `TaucLorentz` material with the parameters `o.1` (amplitude), `o.2.1` (broadening) and `o.2.2` (energy) of each oscillator, `Eg` and `einf`: the squared index has the imaginary part `Σ Am En C (E - Eg)² / (E ((E² - En²)² + C² E²))` above the gap and 0 below, and it is the boundary value of one causal function that tends to `einf` (for broadenings up to `√2 En`, off the gap; see C53). | C124_gauss: a `Gauss` material with the parameters `o.1` (amplitude), `o.2.1` (broadening) and `o.2.2` (energy) of each oscillator and `einf`: at the energies of its grid the imaginary part of the squared index is `Σ Am (exp(-((E-En)/σ)²) - exp(-((E+En)/σ)²))`, and `einf` is the mean of the real part over the grid. | C124_model: psi and delta of a model whose structure holds these component objects, whatever was assigned to their attributes and parameters before, are those of Maxwell's boundary value problem for the films that the current values of the parameters describe in their roles."},
  {"property": "C125", "status": "partial", "theorems": ["Verif.Obj.C125_fails", "Verif.Obj.C125_fails_other", "Verif.Obj.C125_no_weights", "Verif.Obj.C125_partial", "Verif.Obj.C125_no_lnsigma"], "note": "C125_fails: fails: whatever is handed to `DataSE`, the data set has no weights, and an objective with this data is not weighted although it is told to be, at construction or later. | C125_fails_other: fails for anything but a `DataSE`, also.:  | C125_partial: for data that the user has declared weighted the switch decides whether the objective is, and switching it on subtracts from the log-likelihood half the logarithms of 2 pi times the variances, without effect on residuals and chi-squared. Missing: data as constructed (`C125_fails`); and no uncertainty of the data enters, because there is none."},
  {"property": "C126", "status": "proved", "theorems": ["Verif.TMM.C126_reflectance", "Verif.TMM.C126_psi"], "note": "C126_reflectance: each polarisation is reflected to the same fraction by a transparent stack and by the reversed stack, at angles related by Snell's law. | C126_psi: psi of a transparent sample is the same from both sides (also if it has no value)."},
  {"property": "C127", "status": "partial", "theorems": ["Verif.Data.C127_load_partial", "Verif.Data.C127_fails_length", "Verif.Data.C127_fails_mask", "Verif.Data.C127_fails_refresh"], "note": "C127_load_partial: partial: if the file has as many points as the mask of the dataset has entries, then after `data.load(file)` the dataset presents the points of the file that the *old* mask lets through. Missing: files of another length, and getting rid of the mask, see `C127_fails_length` and `C127_fails_mask`. | C127_fails_length: fails: loading a file with another number of points than the dataset had before leaves a dataset none of whose accessors works, although nothing was ever masked. | C127_fails_mask: fails: a point that the old mask hides stays hidden after another file is loaded. | C127_fails_refresh: fails: refreshing a dataset that was read from a file of at least four points, if it succeeds, leaves a dataset none of whose accessors works."},
  {"property": "C128", "status": "partial", "theorems": ["Verif.Struct.C128_mix_partial", "Verif.Struct.C128_fails_bruggeman", "Verif.Struct.C128_fails_garnett", "Verif.Struct.C128_fails_layer"], "note": "C128_mix_partial: mixing with an undefined index gives an undefined index under the linear rule, and under the Maxwell-Garnett rule if the first material is the undefined one. Missing: the other cases, for which the claim is false, see `C128_fails_bruggeman` and `C128_fails_garnett`. | C128_fails_bruggeman: fails for the Bruggeman rule: if one of the materials has no index, the mixture has index 0. | C128_fails_garnett: fails for the Maxwell-Garnett rule: if the second material has no index, the mixture has index 0. | C128_fails_layer: fails for structures: in a solvated structure with the Bruggeman rule, an interior layer whose material has no index at the structure's wavelength appears in the slabs with index 0."},
  {"property": "C129", "status": "proved", "theorems": ["Verif.Disp.C129_gauss_knots", "Verif.Disp.C129_gauss_static", "Verif.Disp.C129_gauss_high", "Verif.Disp.C129_lorentz"], "note": "C129_gauss_knots: Gauss: at the knots of the grid the real part is `Einf` plus the periodic Hilbert transform of the imaginary part, with cotangent kernel at odd distances: resonances above an energy raise the real part there, resonances below lower it. | C129_gauss_static: Gauss: oscillators with non-negative amplitudes and centres raise the static dielectric constant above `Einf`, strictly if one of them has a positive amplitude, a width and a positive centre. | C129_gauss_high: Gauss: from 20 eV on, where the grid ends, the real part is at most `Einf`. | C129_lorentz: Lorentz: below all resonances the real part is at least `Einf`, above all of them at most `Einf`."},
  {"property": "C130", "status": "partial", "theorems": ["Verif.Parse.C130_block_partial", "Verif.Parse.C130_fails_heading"], "note": "C130_block_partial: **C130**, partial: if the DATA block has a heading and at least one row, the lines from which the table is taken (skip these, then a heading, then so many rows) are exactly the block. Missing: a heading without rows, see `C130_fails_heading`. | C130_fails_heading: **C130 fails** for a DATA block that has a heading only: it is kept as a string, and the number of rows asked for is the number of its characters less one, so that the lines after the block are read as data."},
  {"property": "C131", "status": "proved", "theorems": ["Verif.TMM.C131_two_candidates", "Verif.TMM.C131_four_candidates", "Verif.TMM.C131_folded_alias", "Verif.TMM.C131_matched_film"], "note": "C131_two_candidates: at oblique incidence one measured pair (psi, delta), delta up to whole turns, leaves at most two thicknesses of a transparent film, up to whole interference periods `λ / (2 n cos θ')`. The film must differ from both of its neighbours; the substrate may absorb. | C131_four_candidates: with delta folded onto `[0, 180]` (`reflect_delta`): at most four thicknesses up to whole periods. | C131_folded_alias: folding costs information. For a transparent film on a transparent substrate the thicknesses `d` and `P - d` (`P` the period) give the same psi, and the same delta under `reflect_delta`. | C131_matched_film: why the film must differ from the medium before it: otherwise psi and delta do not depend on the thickness at all."},
  {"property": "C132", "status": "proved", "theorems": ["Verif.RModel.C132_slabs", "Verif.RModel.C132_model"], "note": "C132_slabs: slabs: the rows of a structure with `reverse_structure` and those of the structure whose components are listed in the opposite order agree in thickness, index and solvent fraction, whether the solvent is named or is the backing medium. | C132_model: so the model computes the same psi and delta from both."},
  {"property": "C133", "status": "partial", "theorems": ["Verif.Disp.C133_file_partial", "Verif.Disp.C133_fails_one_row", "Verif.Disp.C133_fails_columns", "Verif.Disp.C133_fails_headless", "Verif.Disp.C133_forms"], "note": "C133_file_partial: partial: a material read from a CSV file (a heading, then at least two rows of wavelength in micron, refractive index and, if present, extinction coefficient, in order of wavelength) has the indices of the file at its wavelengths, straight lines in between and the first or last entry outside. Missing: files with one row, with more than three columns, or without a heading, see `C133_fails_one_row`, `C133_fails_columns`, `C133_fails_headless`. | C133_fails_one_row: fails for a file with one row of data: the object is made, but cannot be evaluated at any wavelength. | C133_fails_columns: fails for a file with more than three columns: the extinction coefficient of the third column is lost, without an error. | C133_fails_headless: fails for a file without a heading: whatever the first line holds is ignored."},
  {"property": "C134", "status": "partial", "theorems": ["Verif.Obj.C134_determined", "Verif.Obj.C134_fails_exact", "Verif.Obj.C134_sensitivity_partial"], "note": "C134_fails_exact: fails when the fit is perfect: if the model reproduces the data and the offset of delta is among the varying parameters, covar - whose central differences step to both sides - does not return a covariance, whatever the steps: the residuals of delta are distances, equal on both sides. (`C134_determined`: the data determine the offset.) | C134_sensitivity_partial: partial: where no delta of the model agrees with the data or is opposite to them, the residuals have a Jacobian, and `Jᵀ J`, which covar inverts (C100), is that of the model values themselves: `Aᵀ A + Bᵀ B` with the Jacobians of psi and delta. Missing: points at which delta is reproduced exactly, see `C134_fails_exact`."},
  {"property": "C135", "status": "partial", "theorems": ["Verif.Obj.C135_arrays_partial", "Verif.Obj.C135_file_partial", "Verif.Obj.C135_fails_convention", "Verif.Obj.C135_fails_offset"], "note": "C135_arrays_partial: partial: psi and delta that a model has returned, put into a dataset whose convention for delta is that of the model, are fitted by the model with all residuals 0 and chi-squared 0. Missing: data in the other convention and deltas above 180 in the folded convention, see `C135_fails_convention`, `C135_fails_offset`. | C135_file_partial: partial: the same through a file: psi and delta that a model has returned, put into a dataset, saved and loaded, are fitted by the model with all residuals 0. Missing: models that return delta in the folded convention, see `C135_fails_convention`; another delimiter, see `C64_fails_delimiter`. | C135_fails_convention: fails: a model that folds delta (it was fitted to folded data) does not fit its own psi and delta in a new dataset, because the objective makes it unfold delta. | C135_fails_offset: fails: with an offset a model that folds delta can return a delta above 180, which a dataset in the same convention folds back; the model does not fit its own data."},
  {"property": "C136", "status": "proved", "theorems": ["Verif.TMM.C136_amplitudes", "Verif.TMM.C136_substrate", "Verif.TMM.C136_psi_delta"], "note": "C136_amplitudes: what lies beneath an absorbing film cannot be seen. Two stacks agree from the front down to a film whose normal wave number is `q` (in units of the wave number in vacuum) and which attenuates by `b`, capped at 35. Whatever media lie beneath it, the reflection amplitudes differ by at most a multiple of `exp(-2 b)` that depends on the ratio `g = Im q / Re q` only. | C136_substrate: the film might as well be the substrate. | C136_psi_delta: for the observables: where the second stack reflects (`rs'`, `rp'`), psi and delta of the two stacks differ by little."},
  {"property": "C137", "status": "partial", "theorems": ["Verif.Disp.C137_close_partial", "Verif.Disp.C137_fails", "Verif.Disp.C137_fails_far", "Verif.Disp.C137_between_partial"], "note": "C137_close_partial: partial: at a knot of the grid up to 10 eV, for Gaussians of widths up to 2 eV centred up to 10 eV, the real part differs from `Einf` plus the Kramers-Kronig transform of the documented imaginary part by at most 1/450 of the first moment of the absorption about the energy (in eV², as sampled on the grid), and `|A| / 80 σ³` for each oscillator, and `10⁻⁹ |A|`. Missing: equality (`C137_fails`); energies between the knots are in `C137_between_partial`. | C137_fails: **C137 is false of the code.** One Gaussian of amplitude 4 and width 2 eV at 8 eV: close to the static limit the real part is lower than `Einf` plus the Kramers-Kronig transform of the imaginary part by more than 1/50, because the Hilbert transform is that of a function with period 40 eV. | C137_fails_far: **C137 is false of the code.** Beyond 20 eV the imaginary part stays at its value at 20 eV; unless that value is zero the Kramers-Kronig integral of the imaginary part that the model returns does not exist, at no energy up to 20 eV. | C137_between_partial: partial: at every energy up to 9.98 eV, for Gaussians of widths up to 2 eV centred up to 10 eV, the integral of the Kramers-Kronig transform exists, and the real part differs from `Einf` plus the transform of the documented imaginary part by at most 1/450 of the first moment of the absorption about a knot less than a step of the grid away (in eV², as sampled on the grid), and `|A| / 40 σ³` for each oscillator, and `2·10⁻⁹ |A|`. Missing: equality (`C137_fails`)."},
  {"property": "C138", "status": "proved", "theorems": ["Verif.TMM.C138_amplitudes", "Verif.TMM.C138_psi_delta"], "note": "C138_amplitudes: for the amplitudes: they are as often differentiable as the fronting index, angle, wavelength, thicknesses and indices are. | C138_psi_delta: where `Delta_Psi_TMM` returns psi and delta, delta strictly between the ends of its range, both are as often differentiable as the fronting index, angle, wavelength, thicknesses and indices are."},
  {"property": "C139", "status": "proved", "theorems": ["Verif.TMM.C139_slope", "Verif.TMM.C139_visible", "Verif.TMM.C139_transparent", "Verif.TMM.C139_confounded"], "note": "C139_slope: to first order in its thickness a film on a substrate changes psi and delta as Drude's formula says: `ρ = tan psi exp(-i delta)` changes by the factor `1 + drude * d`. Delta as an angle; as a number when it is not at the ends of the range 0..360. | C139_visible: a film that differs from both of its neighbours is visible to first order at every oblique angle: psi or delta has a slope that is not zero. | C139_transparent: a transparent film on a transparent substrate leaves psi alone to first order; below the Brewster angle of the substrate delta starts at 180 degrees and changes with the slope `720/λ · n₀ cos θ sin² θ n_b² (n² - n₀²)(n² - n_b²) / (n² (n_b² - n₀²)(n_b² cos² θ - n₀² sin² θ))` degrees per nm. | C139_confounded: two films for which `(n² - n₀²)(n² - n_b²)/n²` differs by a real factor `c` cannot be told apart to first order: a thickness `d` of one looks like a thickness `c d` of the other. (For transparent films on transparent substrates there always is such a factor: index and thickness are not determined separately.)"},
  {"property": "C140", "status": "proved", "theorems": ["Verif.Disp.C140_cauchy", "Verif.Disp.C140_sellmeier"], "note": "C140_cauchy: Cauchy: unless the index is constant, no causal function (whatever its limit `einf` at infinity) has the square of the index as its boundary values. | C140_sellmeier: Sellmeier: there is one function, holomorphic above the real axis, real in the time domain and tending to `Einf`, whose boundary value is the square of the index at every wavelength at which there is one."},
  {"property": "C141", "status": "partial", "theorems": ["Verif.Obj.C141_residuals_partial", "Verif.Obj.C141_fails_offset"], "note": "C141_residuals_partial: partial: reading data with `reflect_delta=True` instead of as it is does not change the residuals of psi and does not increase those of delta, whatever the model did before. In particular a perfect fit remains one. Missing: models with an offset of delta, for which this is false (`C141_fails_offset`); wavelengths that are integers. | C141_fails_offset: fails with an offset of delta: the data are fitted exactly as they are, but not if they are read with `reflect_delta=True`, because the model adds the offset after folding."},
  {"property": "C142", "status": "partial", "theorems": ["Verif.TMM.C142_bound", "Verif.TMM.C142_range_partial", "Verif.TMM.C142_fails_gap", "Verif.TMM.C142_fails_films"], "note": "C142_range_partial: no number that `coh_tmm` calculates from the phases on overflows, if the interfaces and the attenuation of the films permit. Missing: thick films beyond their critical angle and many opaque films, where the clip of `delta` does not prevent the overflow (`C142_fails_gap`, `C142_fails_films`). | C142_fails_gap: fails for a film far beyond its critical angl: e: light of 628 nm at 45 degrees before a gap of 75 micrometres. Exactly calculated the amplitudes are finite, but `beta` is larger than the largest double, because the clip treats `delta` with a negative imaginary part as not opaque. | C142_fails_films: fails for many opaque films: with 21 or more of them, each clipped to an attenuation of 35 nepers, the product of the matrices is larger than the largest double, at normal incidence."},
  {"property": "C143", "status": "partial", "theorems": ["Verif.EMA.C143_fraction_partial", "Verif.EMA.C143_distinct_partial", "Verif.EMA.C143_fails"], "note": "C143_fraction_partial: partial: the volume fraction can be computed back from the mixed index, for any two different passive materials and any volume fraction between 0 and 1. Missing: metals under the Bruggeman rule with depolarisation factor 0 (`C143_fails`), and factor 1 under this rule (`C32_fails_bruggeman_one`). | C143_distinct_partial: partial: so different volume fractions give different indices. Missing as for `C143_fraction_partial`. | C143_fails: is false of the code for metals with depolarisation factor 0 under the Bruggeman rule: over a whole range of compositions the index is 0."},
  {"property": "C144", "status": "partial", "theorems": ["Verif.EMA.C144_continuous_partial", "Verif.EMA.C144_fails"], "note": "C144_continuous_partial: partial: the mixed index is a continuous function of the two indices, the volume fraction and the depolarisation factor together, at any passive materials and any admissible volume fraction and factor, whatever the signs of zero. Missing: metals under the Bruggeman rule (`C144_fails`). | C144_fails: is false of the code for metals under the Bruggeman rule: in a material of index `3 + 4i` with pores of air (depolarisation factor 1/2) the extinction coefficient jumps from below -1 to above 1 as the porosity passes 1/4."},
  {"property": "C145", "status": "partial", "theorems": ["Verif.TMM.C145_psi", "Verif.TMM.C145_phase_partial", "Verif.TMM.C145_fails_phase"], "note": "C145_phase_partial: partial: beyond the critical angle of a bare interface delta, folded onto [0, 180], is Fresnel's phase difference. Missing: delta that is not folded (`C145_fails_phase`). | C145_fails_phase: is false of the code for delta that is not folded: at every angle beyond the critical angle of a bare interface `Delta_Psi_TMM` returns 360 - δ, whereas the solution of Maxwell's equations whose wave decays in the backing medium has `r_p = r_s exp(-i δ)`, that is (C14) delta = δ, between 0 and 180 degrees."},
  {"property": "C146", "status": "partial", "theorems": ["Verif.Obj.C146_residuals_partial", "Verif.Obj.C146_chisqr_partial", "Verif.Obj.C146_logl_partial", "Verif.Obj.C146_fails"], "note": "C146_residuals_partial: for data with psi between 0 and 90 and delta between 0 and 360 and an offset of at most half a turn, whatever the structure, no residual of psi exceeds 90 and none of delta exceeds 180; the residuals are those of psi, one for each unmasked point, followed by those of delta. Missing: larger offsets, for which there is no bound (`C146_fails`). | C146_chisqr_partial: then chi-squared, if finite, is at most (90² + 180²) times the number of unmasked points. Missing: larger offsets, as above. | C146_logl_partial: and the log-likelihood of an objective without weights is never below -(90² + 180²)/2 times the number of unmasked points, whether or not it has `lnsigma`, and never positive. Missing: larger offsets, as above. | C146_fails: fails beyond: data that the model reproduces exactly are at chi-squared zero without offset, and with an offset of n turns, which makes no difference to the angle, chi-squared is (360 (n - 1))², larger than any bound."},
  {"property": "C147", "status": "partial", "theorems": ["Verif.Repr.C147_slab", "Verif.Repr.C147_mixed", "Verif.Repr.C147_complete_partial", "Verif.Repr.C147_fails_model", "Verif.Repr.C147_fails_objective", "Verif.Repr.C147_fails_class"], "note": "C147_complete_partial: for structures and datasets: the brackets are closed. Missing: the class is not the one that is printed (`C147_fails_class`). | C147_fails_model: fails for models: if the parts are complete, the printed form lacks the closing bracket, for every structure, name and offset. | C147_fails_objective: fails for objectives, whose printed form cont: ains that of the model: it lacks a bracket too. | C147_fails_class: fails for the names: the printed forms of structures, models, datasets and objectives do not call their classes, and `mask`, which is printed for datasets, is not a parameter of their constructor."},
  {"property": "C148", "status": "partial", "theorems": ["Verif.TMM.C148_psi_delta_partial", "Verif.TMM.C148_fails_critical"], "note": "C148_psi_delta_partial: . Rounding costs no more than a multiple of the roundoff: for every array of rows and every point at which psi and delta exist there are `C` and `u₀` such that in every arithmetic with roundoff `u ≤ u₀`, and if the entries of the array are also off by `u`, the code gives two numbers, psi within `C u` and delta within `C u` up to whole turns, and delta between the offset and the offset plus 360 within `C u`; with `reflect_delta` there are no jumps by turns. Partial: no medium without absorption may be at its critical angle. | C148_fails_critical: . The multiple of the roundoff does not exist at a critical angle: from a medium of index 2 onto one of index 1 at 30 degrees psi is 45, and with a sine that is off by `u` it is off by more than any multiple of `u`."},
  {"property": "C149", "status": "partial", "theorems": ["Verif.Obj.C149_chisqr_partial", "Verif.Obj.C149_fails_critical"], "note": "C149_chisqr_partial: . The chi-squared a machine computes is within a multiple of the roundoff of chi-squared: for every objective whose chi-squared is finite there are, for every number `n` of roundings that follow upon each other in the dot product, `C` and `u₀` such that in all arithmetics with roundoff `u ≤ u₀` (a different one for every point) psi and delta are numbers and every value the dot product of the residuals may take is within `C u`. Partial: points at the critical angle of a medium that does not absorb, for which it is false (`C149_fails_critical`), offsets of half a turn and more, data with delta outside 0..360 and integer arrays are missing. | C149_fails_critical: fails at a critical angle: light in a medium of index 2 meets one of index 1 at 30 degrees, data have a psi that is too high by one degree, chi-squared is 1. With a sine that is off by `u`, and a dot product without error, chi-squared is off by more than any multiple of `u`."},
  {"property": "C150", "status": "partial", "theorems": ["Verif.Struct.C150_edits_partial", "Verif.Struct.C150_refused", "Verif.Struct.C150_fails_scatterer", "Verif.Struct.C150_fails_slice", "Verif.Struct.C150_new_partial"], "note": "C150_edits_partial: . Editing a structure with the methods of a list, in place, in any order, changes its components as it would change a list of them (edits that name no position raise IndexError and have no effect) and nothing else, and the slabs follow: one row for each component, in order, with its thickness, roughness and solvent fraction (for a structure that is not reversed). Partial: only components may be put in (`C150_fails_scatterer`); slices, sums, multiples and copies are not in this claim (`C150_fails_slice`). | C150_fails_scatterer: fails for scatterers: `append` makes a slab of a scatterer, `insert`, item assignment and `extend` put in the scatterer as it is, and the slabs of the structure cannot be computed any more, whatever the other components are. | C150_fails_slice: fails for slices, sums, multiples and copies: the whole of a reversed structure as a slice, as a sum, once, or as a copy has other slabs than the structure. | C150_new_partial: slices, sums, multiples and copies are new structures with the components one expects of a list, without name and with the settings of a new structure (not, as one would expect, those of the old structure: `C150_fails_slice`); whatever is added and is no component is left out."},
  {"property": "C151", "status": "partial", "theorems": ["Verif.RModel.C151_alone_partial", "Verif.RModel.C151_one_wavelength_partial", "Verif.RModel.C151_flat_partial", "Verif.RModel.C151_fails_race"], "note": "C151_alone_partial: a thread whose structure no other thread uses returns what it would return alone, whatever the other threads do and in whatever order the threads make their steps; and it returns after a number of its own steps that does not depend on the others. Partial: structures that are shared, for which it is false (`C151_fails_race`). | C151_one_wavelength_partial: threads may share a structure if all of them evaluate it at one and the same wavelength. | C151_flat_partial: threads may share a structure whose indices do not depend on the wavelength. | C151_fails_race: fails for a structure that two threads evalua: te at different wavelengths. At 1000 nm psi of this surface is 45 and delta 180 degrees at normal incidence. If the second thread asks for 500 nm just after the first has set the wavelength, the first thread returns the values for the index at 500 nm, of which there are none."},
  {"property": "C152", "status": "partial", "theorems": ["Verif.Disp.C152_increasing_partial", "Verif.Disp.C152_bundled", "Verif.Disp.C152_fails_decreasing"], "note": "C152_increasing_partial: for rows in the order of increasing wavelength (repeated wavelengths are allowed) the search of `np.interp` finds the interval, whatever its first guess, and the index is that of the model, which C46 and C57 are about. Partial: rows in another order, see `C152_fails_decreasing`. | C152_fails_decreasing: fails for rows in the order of decreasing wav: elength: the interpolation is a step. Above the smallest wavelength the index is that of the last row, elsewhere that of the first one - the values in between do not matter, and at its own wavelength even the first row is not found."},
  {"property": "C153", "status": "partial", "theorems": ["Verif.Disp.C153_gauss", "Verif.Disp.C153_index_partial", "Verif.Disp.C153_bundled_partial", "Verif.Disp.C153_fails_jump", "Verif.Disp.C153_fails_metal", "Verif.TMM.C153_psi_delta_partial"], "note": "C153_index_partial: . Rounding costs a refractive index no more than a multiple of the roundoff: for every layer made of usable materials, mixed with a known rule, there are `C` and `u₀` such that every arithmetic with roundoff `u ≤ u₀` gives a finite index within `C u` of the exact one, and an index without imaginary part if no material absorbs. | C153_bundled_partial: for the materials of the package: all are usable at every wavelength, for the rule of Bruggeman if they are no metal there. Partial: the table of `aluminium_oxide` has repeated wavelengths. | C153_fails_jump: is false of the code for a table with two rows at one wavelength (`aluminium_oxide` has some): there the index of either row may be returned, whatever the roundoff. | C153_fails_metal: is false of the code for metals under the Bruggeman rule: for a material of index `3 + 4i` with a quarter of air (depolarisation factor 1/2) two arithmetics with the same arbitrarily small roundoff give indices more than 2 apart. | C153_psi_delta_partial: . From the parameters of the materials to psi and delta: if the index of no layer is lost in rounding (`C153_index_partial`) and no medium without absorption is at its critical angle, then rounding, in the indices and in `Delta_Psi_TMM`, costs no more than a multiple of the roundoff. Layers whose index has no imaginary part are to be made of materials without absorption; the first row is."},
  {"property": "C154", "status": "partial", "theorems": ["Verif.EMA.C154_factor_partial", "Verif.EMA.C154_order", "Verif.EMA.C154_fails_one", "Verif.EMA.C154_fails_linear"], "note": "C154_factor_partial: partial: for any two different passive materials, mixed in earnest by a rule which uses the depolarisation factor, this factor can be computed back from the index. Missing: the factor 1 under the Bruggeman rule (`C154_fails_one`), and the linear rule (`C154_fails_linear`). | C154_fails_one: is false of the code for the Bruggeman rule at factor 1: metals are mixed to the same index, 0, with the factors 0 and 1. | C154_fails_linear: is false of the linear rule, which ignores the depolarisation factor."},
  {"property": "C155", "status": "partial", "theorems": ["Verif.TMM.C155_amplitudes_partial", "Verif.TMM.C155_psi_delta_partial", "Verif.TMM.C155_equal", "Verif.TMM.C155_slices", "Verif.TMM.C155_rate_partial", "Verif.TMM.C155_fails_critical"], "note": "C155_amplitudes_partial: a layer whose index varies continuously with depth, between homogeneous films in a physical stack. Maxwell's equations for it have exactly one solution, with the backing medium's outgoing wave; the amplitudes that the code returns for the layer cut into slabs (index taken anywhere in each slab) tend to that solution as the slabs become thin. Missing: films (not slabs) that attenuate by more than 35 nepers, slabs of exactly critical index. | C155_psi_delta_partial: for the observables, same restrictions: psi of the sliced layer tends to the angle whose tangent is `|r_p / r_s|` of the graded layer, and delta, as an angle, to the argument of `r_s / r_p`. | C155_rate_partial: (partial), rate: if the index changes by at most `L` per nm, the error of the amplitudes is at most proportional to the thickness of the slabs. Same restrictions. | C155_fails_critical: fails for slabs of exactly critical index (`n: = n₀ sin θ`), however thin: the code divides by zero and has no result, though the graded layer reflects like any other."},
  {"property": "C156", "status": "partial", "theorems": ["Verif.TMM.C156_amplitudes_partial", "Verif.TMM.C156_psi_delta_partial", "Verif.TMM.C156_indices", "Verif.TMM.C156_linear_partial", "Verif.TMM.C156_fails_oblique"], "note": "C156_amplitudes_partial: a film of fixed thickness made of more and more periods of a cell of passive layers, between homogeneous films in a physical stack. The amplitudes that the code returns tend to the one solution of Maxwell's equations for a homogeneous uniaxial film in its place, with the mean of `n²` for fields along the layers and the inverse of the mean of `1 / n²` for fields across them. Missing: films (not the thin layers) that attenuate by more than 35 nepers, layers of exactly critical index. | C156_psi_delta_partial: for the observables, same restrictions: psi tends to the angle whose tangent is `|r_p / r_s|` of the uniaxial film, and delta, as an angle, to the argument of `r_s / r_p`. | C156_linear_partial: (partial), mixing rule: for layers of two materials, the amplitudes for s polarisation at any angle, and all amplitudes at normal incidence, tend to those that the code returns for a single film with the index of the linear rule of `overall_ri`. Missing, besides the restrictions above: p polarisation at oblique incidence, for which it is false (`C156_fails_oblique`); mixed films that attenuate by more than 35 nepers or are exactly critical. | C156_fails_oblique: fails for the mixture rules at oblique incide: nce: psi of layers of index 1 and `√3`, half and half, does not tend to psi of the film with the index that `overall_ri` gives by the linear rule, although the amplitude for s polarisation does (`C156_linear_partial`)."},
  {"property": "C157", "status": "proved", "theorems": ["Verif.TMM.C157_amplitudes", "Verif.TMM.C157_psi_delta", "Verif.TMM.C157_psi_delta_rate", "Verif.TMM.C157_absorbing", "Verif.TMM.C157_mirror", "Verif.TMM.C157_psi", "Verif.TMM.C157_pass", "Verif.TMM.C157_two_layers", "Verif.TMM.C157_stop_band", "Verif.TMM.C157_quarter"], "note": "C157_amplitudes: many periods of a cell in which light is attenuated (a Bloch wave has a factor below 1) hide what is behind them. The reflected amplitude that the code returns tends to the one of a wave that goes over into the attenuated Bloch wave, which does not depend on the backing medium and the films in front of it, and the transmitted amplitude tends to 0, both at a geometric rate. | C157_psi_delta: for the observables: psi and delta tend to those of the two attenuated Bloch waves, whatever is behind the periods. | C157_psi_delta_rate: for the observables, rate: psi and delta (as an angle) tend to those values at a geometric rate, the slower one of the two Bloch waves; the constant is the same for all settings. The hypotheses are those of `C157_psi_delta`, met by the mirror below. | C157_absorbing: a cell with a layer that absorbs attenuates light of both polarisations. | C157_mirror: if neither the cell nor the films in front of it absorb, the reflectance in the stop band tends to 1 at a geometric rate. | C157_psi: if both polarisations are in the stop band of a cell that does not absorb, psi tends to 45 degrees. | C157_pass: in a pass band (a Bloch wave with a factor of modulus 1, other than 1 and -1) any number of periods lets some light through: the reflectance stays below a bound less than 1. | C157_two_layers: the Bloch waves of a period of two layers. | C157_stop_band: light is attenuated by a period of two layers exactly if the cosine of the Bloch phase is not a real number from -1 to 1. | C157_quarter: a quarter-wave mirror at normal incidence. The reflectance of `N` periods of films of real indices `x ≠ y`, each a quarter of the wavelength thick, tends to 1 at the rate of `(x / y) ^ (2 N)`, whatever the backing medium."},
  {"property": "C158", "status": "proved", "theorems": ["Verif.Disp.C158_error", "Verif.Disp.C158_spacing", "Verif.Disp.C158_sharp", "Verif.Disp.C158_cauchy", "Verif.Disp.C158_converges", "Verif.TMM.C158_psi_delta"], "note": "C158_error: between two neighbouring rows the index differs from the curve by at most half the curvature times the product of the distances to the two rows, in `n` and in `k`. | C158_spacing: with rows at most `h` apart, the index is within `M h² / 8` of a curve whose second derivative is at most `M`: halving the spacing of the table divides its error by four. | C158_sharp: the estimate cannot be improved: for samples of a parabola the error half way between two rows is `M h² / 8`. | C158_cauchy: a table of a Cauchy material without absorption (`B, C ≥ 0`) never gives an index below that of the material, and exceeds it by at most `(6 B / a⁴ + 20 C / a⁶) (b - a)² / 8` between rows at `a` and `b` (wavelengths in nm, hence the powers of 1000). | C158_converges: The tables converge: a sequence of tables of a continuous curve, whose rows around the wavelength draw together, gives indices that tend to the curve. | C158_psi_delta: if the materials of a sample are given by tables of continuous curves whose rows draw together around the wavelength, psi and delta (as an angle) tend to those of the curves themselves. The media absorb or are below their critical angle (see C116), and no film is so thick that the exponentials leave the range of the limit of 35."},
  {"property": "C159", "status": "proved", "theorems": ["Verif.Disp.C159_f_sum", "Verif.Disp.C159_static", "Verif.Disp.C159_mean", "Verif.Disp.C159_high", "Verif.Disp.C159_free"], "note": "C159_f_sum: f-sum rule: the integral of `E Im ε` over all energies is `π/2` times the sum of the amplitudes, whatever the widths and energies of the oscillators (free carriers, `En = 0`, included). | C159_static: the dielectric function at zero energy is `Einf` plus the sum of `A / En²`, and its excess over `Einf` is `2/π` times the integral of `Im ε / E`: all of it comes from the absorption. | C159_mean: the deviation of the real part from `Einf` averages to zero over all energies. | C159_high: at high energies the material responds like free electrons: `E² (ε - Einf)` tends to minus the sum of the amplitudes, the same sum as in the f-sum rule. | C159_free: A free carrier term breaks the rule for the mean of the real part (`C159_mean` needs `En ≠ 0`), not the f-sum rule: its deviation from `Einf` is `-A / (E² + B²)`."},
  {"property": "C160", "status": "partial", "theorems": ["Verif.Disp.C160_user", "Verif.Disp.C160_default", "Verif.Disp.C160_own", "Verif.Disp.C160_oscillators_partial", "Verif.Disp.C160_sellmeier_wavelength", "Verif.Disp.C160_fails_sellmeier"], "note": "C160_oscillators_partial: partial: `epsilon(1239.841984055 / w)` of Lorentz, Gauss and Tauc-Lorentz models is the square of their index at the wavelength `w`. Missing: `Sellmeier` (`C160_fails_sellmeier`). | C160_fails_sellmeier: **C160 is false of `Sellmeier`.** For every Sellmeier material with an absorption band at shorter wavelengths and no infrared term, at every wavelength above 36 nm: given the photon energy, `epsilon` returns less than `Einf`, while the square of the index is more than `Einf`."},
  {"property": "C161", "status": "proved", "theorems": ["Verif.RModel.C161_model", "Verif.RModel.C161_user", "Verif.RModel.C161_constant"], "note": "C161_model: two structures that differ only in materials that have the same index at the wavelengths asked for give the same psi and delta (or the same error), whatever classes the materials belong to. | C161_user: a user defined subclass of `ScattererSE` whose `epsilon` is that of a Lorentz, Gauss or Tauc-Lorentz model has the same index as the package's class (`zu`: the sign of zero is the same, too), so the two can be exchanged in `C161_model`. | C161_constant: four ways to write a transparent material of constant index `n`: `RI([n, 0])`, `Cauchy(n)`, `Sellmeier(0, En, 0, n²)` (away from `En`) and `Lorentz(0, Br, En', n²)` with `Br ≠ 0`."},
  {"property": "C162", "status": "proved", "theorems": ["Verif.TMM.C162_amplitudes", "Verif.TMM.C162_psi_delta"], "note": "C162_amplitudes: . `coh_tmm` limits the attenuation of a film to 35 nepers; Maxwell's equations do not. The boundary value problem without the limit has exactly one solution, and the reflected amplitude that the code returns is within `10⁻¹⁷` of it, if in the absorbing films the imaginary part of the normal wave number is at most a million times the real part. | C162_psi_delta: for psi and delta: they differ from those of the sample without the limit (`R_p = R_s tan(psi) exp(-i delta)`) by no more than `2·10⁻¹⁷` in the sine, weighted with the size of the amplitudes."},
  {"property": "C163", "status": "proved", "theorems": ["Verif.TMM.C163_finitely_many", "Verif.TMM.C163_incommensurate", "Verif.TMM.C163_commensurate", "Verif.TMM.C163_wavelengths"], "note": "C163_finitely_many: `M` measured pairs leave at most `2^M` thicknesses (`4^M` if delta is folded) of a transparent film, up to lengths that are whole numbers of periods in every one of the measurements. | C163_incommensurate: if two of the measurements have incommensurate periods, finitely many thicknesses are left altogether. | C163_commensurate: converse: if a length is a whole number of periods in every measurement, thicknesses that differ by it give the same psi and delta in all of them, so that the measurements cannot tell the thickness. | C163_wavelengths: for one angle and a film without dispersion: the periods are as the wavelengths."},
  {"property": "C164", "status": "proved", "theorems": ["Verif.TMM.C164_amplitude", "Verif.TMM.C164_normal", "Verif.TMM.C164_oblique"], "note": "C164_amplitude: a transparent film between transparent media, below the critical angles, reflects nothing of one polarisation exactly if it is matched. | C164_normal: at normal incidence: psi and delta are `nan` exactly for an antireflection coating (an odd number of quarter waves of the index `√(n₀ nb)`), for a film of whole half waves between equal media, and if there is no interface. In all other cases they are 45 and 180 degrees. | C164_oblique: at oblique incidence: psi is `nan` only if the film does not show at all, that is, if it lies between equal media and has their index or a thickness of whole half waves. No antireflection coating works for both polarisations."},
  {"property": "C165", "status": "partial", "theorems": ["Verif.Obj.C165_text", "Verif.Obj.C165_raises", "Verif.Obj.C165_state", "Verif.Obj.C165_no_effect", "Verif.Obj.C165_counts_partial", "Verif.Obj.C165_fails"], "note": "C165_counts_partial: the two counts in the text. Without a name the dataset is shown with the number of points that are fitted, and the line below it gives the number of points stored. Missing: that they agree if points are masked, which is false (`C165_fails`). | C165_fails: fails for the counts: with one of two points masked the text says \"1 points\" and \"datapoints = 2\", and shows the misfit of one point."},
  {"property": "C166", "status": "proved", "theorems": ["Verif.Obj.C166_finitely_many", "Verif.Obj.C166_incommensurate", "Verif.Obj.C166_periodic"], "note": "C166_finitely_many: the thicknesses for which `objective.chisqr` is 0 are among finitely many, up to lengths that are whole numbers of interference periods at every point. | C166_incommensurate: if the periods at two points have an irrational ratio, only finitely many thicknesses have chi-squared 0. | C166_periodic: if all periods fit into a common length, the residuals, and with them chi-squared, are the same for thicknesses that differ by it, whether or not they fit."},
  {"property": "C167", "status": "partial", "theorems": ["Verif.Obj.C167_best_partial", "Verif.Obj.C167_near_partial", "Verif.Obj.C167_converges_partial", "Verif.Obj.C167_vectors_partial", "Verif.Obj.C167_fails"], "note": "C167_best_partial: a search over a compact set (for instance, all parameters between bounds) has a best fit. Missing: families outside `Deforms`; if they cross total reflection at the backing medium there need not be a best fit (`C167_fails`). | C167_near_partial: given a neighbourhood of the best fits, all fits that are good enough lie in it. Missing: as for `C167_best_partial`. | C167_converges_partial: if the best fit is unique, fits whose chi-squared tends to the smallest one tend to it. Missing: as for `C167_best_partial`. | C167_vectors_partial: (partial), for parameter vectors: over a compact set of vectors `objective.chisqr(pvals)` has a smallest value. Missing: as for `C167_best_partial`. | C167_fails: fails at total reflection: data for which chi-squared gets as small as one likes as the extinction coefficient of the backing medium varies between 0 and 1, but is never the smallest."},
  {"property": "C168", "status": "partial", "theorems": ["Verif.Obj.C168_misfit", "Verif.Obj.C168_fits_partial", "Verif.Obj.C168_film"], "note": "C168_fits_partial: if the data tend to data with a unique best fit, so do the fits; they need only be the best ones up to an error that tends to 0. Missing: as for `C167_best_partial`."},
  {"property": "C169", "status": "partial", "theorems": ["Verif.Obj.C169_weighted_partial", "Verif.Obj.C169_unweighted_partial", "Verif.Obj.C169_fails_unweighted", "Verif.Obj.C169_fails"], "note": "C169_weighted_partial: with weights, adding points or fixing parameters does not increase the variance of any combination `a` of the parameters that are still varied. Missing: if singular values are discarded the claim fails (`C169_fails`). | C169_unweighted_partial: without weights, the variances relative to the reduced chi-squared do not increase. Missing: as for `C169_weighted_partial`. | C169_fails_unweighted: fails for data without weights: a second point with a larger residual increases the variance of the offset from 1 to 25/3. The example also meets the hypotheses of `C169_unweighted_partial`. | C169_fails: fails if a singular value is discarded: with the first residual alone, which depends on `3 x + 4 y`, the variances are 9/625 and 16/625; with a second one that depends on `4 x - 3 y` both are 1/25."},
  {"property": "C170", "status": "partial", "theorems": ["Verif.Obj.C170_difference_partial", "Verif.Obj.C170_best_partial", "Verif.Obj.C170_exists_partial", "Verif.Obj.C170_fails"], "note": "C170_difference_partial: with flat priors, the log-posteriors of two vectors within the bounds differ by half the difference of their chi-squared. Missing: objectives with `lnsigma` (`C170_fails`). | C170_best_partial: with flat priors, the most probable vectors are those that fit best within the bounds. Missing: objectives with `lnsigma`, for which it is false (`C170_fails`). | C170_exists_partial: if the model deforms continuously within the bounds, most probable values exist. Missing: families outside `Deforms` (see `C167_fails`), and `lnsigma`. | C170_fails: fails with `lnsigma`: the offset 5 fits best, but is not the most probable one."},
  {"property": "C171", "status": "partial", "theorems": ["Verif.Disp.C171_cauchy", "Verif.Disp.C171_sellmeier", "Verif.Disp.C171_fails_sellmeier", "Verif.Disp.C171_lorentz_partial", "Verif.Disp.C171_fails", "Verif.Disp.C171_tauc"], "note": "C171_fails_sellmeier: needs the resonance: with `En = 0` amplitude and `einf` cannot be told apart. | C171_lorentz_partial: partial: the index at more wavelengths than the two models have oscillators determines the parameters of a Lorentz model of underdamped oscillators, up to the order of the oscillators. Missing: overdamped oscillators (`C171_fails`). | C171_fails: is false of overdamped Lorentz oscillators: a model of two and a model of one have the same index at every wavelength (for square roots that treat both models alike)."},
  {"property": "C172", "status": "partial", "theorems": ["Verif.Obj.C172_index", "Verif.Obj.C172_cauchy", "Verif.Obj.C172_sellmeier", "Verif.Obj.C172_lorentz_partial", "Verif.Obj.C172_tauc"], "note": "C172_lorentz_partial: with points at more than `2 n` wavelengths, all perfect fits by `n` underdamped Lorentz oscillators have the same `einf` and the same oscillators, up to their order. Missing: overdamped oscillators, for which this is false of the index itself (`C171_fails`)."},
  {"property": "C173", "status": "partial", "theorems": ["Verif.Obj.C173_proper_partial", "Verif.Obj.C173_improper", "Verif.Obj.C173_below_prior", "Verif.Obj.C173_proper_prior", "Verif.Obj.C173_lnsigma_lower"], "note": "C173_proper_partial: with flat priors between finite bounds, and a model that deforms continuously within them, the density has a finite, positive integral. Missing: families outside `Deforms`, and `lnsigma`, for which the density may jump where delta wraps around (`C173_proper_prior` covers them if the density is measurable)."},
  {"property": "C174", "status": "partial", "theorems": ["Verif.TMM.C174_rate_partial", "Verif.TMM.C174_equal", "Verif.TMM.C174_psi_delta_partial"], "note": "C174_rate_partial: if the index has a slope that changes by at most `L` per nm and the index of each slab is taken in its middle, the error of the amplitudes is at most proportional to the square of the thickness of the slabs. Missing, as in C155: films (not slabs) that attenuate by more than 35 nepers, slabs of exactly critical index. | C174_psi_delta_partial: for the observables, same restrictions: psi and delta (as an angle) are off by at most a multiple of the square of the thickness of the slabs."},
  {"property": "C175", "status": "proved", "theorems": ["Verif.Obj.C175_chisqr", "Verif.Obj.C175_isolated", "Verif.Obj.C175_noise", "Verif.Obj.C175_logpost", "Verif.Obj.C175_substrate"], "note": "C175_chisqr: near parameters that reproduce the data, chi-squared is the quadratic form of the sensitivities of psi and delta, up to terms of higher than second order (also where delta wraps around). | C175_isolated: if no direction is without effect on psi and delta to first order, parameters that reproduce the data are the only ones near by that do. | C175_noise: if all changes of the parameters by a unit change psi and delta by more than `σ` to first order, then parameters near `x0` that fit noisy data (`h'`, `d'`) at least as well as `x0` does, are no further from it than `2 / σ` times the noise. | C175_logpost: with flat priors and `x0` between the bounds, the log-posterior is that of a normal distribution with the inverse covariance of the sensitivities, up to terms of higher than second order. | C175_substrate: for the material of a bare substrate: if the varying parameters are parameters of the substrate's material, no direction leaves its index at all measured wavelengths unchanged to first order, and `x0` fits the data perfectly, then parameters near `x0` that fit noisy data at least as well as `x0` differ from it by at most a constant times the noise."},
  {"property": "C176", "status": "proved", "theorems": ["Verif.Obj.C176_consistent", "Verif.Obj.C176_repeated", "Verif.Obj.C176_mean", "Verif.Obj.C176_mass"], "note": "C176_consistent: more and more data, whatever they are: if the log-likelihood divided by their number approaches some function of the parameters uniformly, and this function has a clear maximum (it stays below it by a margin outside of every neighbourhood) that the priors do not exclude, then the mean over the posterior of any quantity that has a mean over the priors approaches its value at the maximum. The priors need only be proper, and `lnsigma` is allowed. | C176_repeated: in particular if every point is measured `N` times with the same result: with a clear maximum of the likelihood of the points, with or without `lnsigma`, the posterior concentrates at it, whatever the proper priors. | C176_mean: a unique best fit of the points, between the bounds, where the priors do not vanish (no `lnsigma`): as every point is measured again and again, the mean of any quantity over the posterior approaches its value at the best fit, whatever the priors. `C176_consistent` is about `lnsigma`, priors without bounds, and repetitions with other results. | C176_mass: and the probability of any neighbourhood of the best fit approaches 1."},
  {"property": "C177", "status": "proved", "theorems": ["Verif.Obj.C177_fit", "Verif.Obj.C177_posterior", "Verif.Obj.C177_turns", "Verif.Obj.C177_truth", "Verif.Obj.C177_needs_turns"], "note": "C177_fit: measurements repeated independently, with random results of any distribution. If the mean of chi-squared has a unique minimum within the compact set that is searched, then almost surely all best fits of the first `N` measurements approach it as `N` grows. | C177_posterior: and almost surely the posterior concentrates there: the mean over it of every quantity that has a mean over the priors, and is continuous there, approaches its value. | C177_turns: unbiased noise. If some parameters reproduce the mean results and no others within the set do, then these are the unique minimum of the mean of chi-squared: fits and posterior approach the truth. Deltas of the model and of the measurement are counted without jumps from 360 to 0, in a way that gives the distances on the circle. | C177_truth: in particular, if some parameters reproduce the mean results, no others within the set do, and no delta is measured more than half a turn from one of the model, then these parameters are the unique minimum of the mean of chi-squared: fits and posterior approach the truth. | C177_needs_turns: needs deltas counted without jumps from 360 to 0: with jumps, their mean is 185, the value of the model for the offset 5, but the mean of chi-squared is less for the offset 10."},
  {"property": "C178", "status": "proved", "theorems": ["Verif.Obj.C178_wavelength", "Verif.Obj.C178_state", "Verif.Obj.C178_angle", "Verif.Obj.C178_measured", "Verif.Obj.C178_chisqr"], "note": "C178_wavelength: a row whose wavelength is `nan` does not raise and does not give `nan`: its psi and delta are 0 (without the delta offset). The other rows have the values they have alone. | C178_state: afterwards `structure.wavelength` is `nan` if the wavelength of a row is. | C178_angle: an angle of incidence that is `nan`, at a wavelength that is not, raises AssertionError although all other rows have values: none of them is returned. | C178_measured: if a psi or a delta of the data is `nan`, chi-squared is never a number. | C178_chisqr: chi-squared of data with wavelengths that are `nan` is chi-squared of the other points plus a constant, the distance of the measured psi and delta of these points from 0: a fit does not notice them."},
  {"property": "C179", "status": "partial", "theorems": ["Verif.Obj.Labelled.C179_reads", "Verif.Obj.Labelled.C179_fails_encoding", "Verif.Obj.Labelled.C179_fails_handle", "Verif.Obj.Labelled.C179_fails_iteration", "Verif.Obj.Labelled.C179_residuals", "Verif.Obj.Labelled.C179_plot_partial", "Verif.Obj.Labelled.C179_fails_plot"], "note": "C179_fails_encoding: **C179 fails where Python has no encoding \"ANSI\"** (it exists on Windows only): no file can be read. | C179_fails_handle: **C179 fails for handles and paths**: the documentation allows an open file, but only a string can be given. | C179_fails_iteration: **C179 fails for iteration**: `unique_wavelength_data` of such a dataset raises KeyError as soon as it presents a point. | C179_plot_partial: **C179**, partial: if the first row of the file is presented, `plot_ellipsdata` over wavelengths draws what it draws for the same points in arrays. Missing: files whose first row is cut off or masked (`C179_fails_plot`). | C179_fails_plot: **C179 fails for `plot_ellipsdata`**: when the dataset presents points, but not the first row of the file, the plot over wavelengths raises KeyError."},
  {"property": "C180", "status": "proved", "theorems": ["Verif.Obj.C180_fit", "Verif.Obj.C180_posterior", "Verif.Obj.C180_cauchy", "Verif.Obj.C180_sellmeier"], "note": "C180_fit: glass of any dispersion law that is known when its values at the measured wavelengths are known. If the noise has no bias, then almost surely all best fits of the first `k` measurements approach the true parameters. | C180_posterior: and so does the posterior, for all proper priors within the set that do not exclude the truth. | C180_cauchy: a Cauchy substrate. Almost surely all best fits of the first `k` measurements approach the true parameters. | C180_sellmeier: a Sellmeier substrate. Almost surely all best fits of the first `k` measurements approach the true parameters."},
  {"property": "C181", "status": "proved", "theorems": ["Verif.Obj.C181_fit", "Verif.Obj.C181_posterior", "Verif.Obj.C181_lorentz", "Verif.TMM.C181_half"], "note": "C181_fit: an absorbing substrate of any dispersion law that is known when its values at the measured wavelengths are known. If the noise has no bias and no delta above 180 is measured, then almost surely all best fits of the first `k` measurements approach the true parameters. | C181_posterior: and so does the posterior, for all proper priors within the set that do not exclude the truth. | C181_lorentz: a substrate with a Lorentz oscillator. Almost surely all best fits of the first `k` measurements approach the true parameters. | C181_half: at oblique incidence psi and delta of a bare absorbing substrate always have values; psi is at most 45 and delta, before the offset, is strictly between 0 and 180 degrees. So folding delta (`reflect_delta`) changes nothing."},
  {"property": "C182", "status": "proved", "theorems": ["Verif.Obj.C182_truth", "Verif.Obj.C182_fit", "Verif.Obj.C182_sharp"], "note": "C182_truth: if the errors of delta are below 90 degrees and without bias, the truth is the only minimum of the mean of chi-squared among parameters that give other values, however far these are and wherever the zero of delta is. | C182_fit: an absorbing substrate (C181). If the errors of delta are below 90 degrees and without bias, almost surely all best fits approach the true parameters, also if measured deltas pass 180 or jump from 0 to 360. | C182_sharp: the bound is sharp. A surface with delta 180 is measured with errors +u and -u, equally often, and the offset of delta is fitted. The mean of chi-squared is less at the true offset 0 than at the offset 180 exactly if u < 90."},
  {"property": "C183", "status": "proved", "theorems": ["Verif.Obj.C183_fit", "Verif.Obj.C183_posterior", "Verif.Obj.C183_converse", "Verif.Obj.C183_film"], "note": "C183_fit: any structure, film or substrate. If exact data determine the parameters within a compact set along which the model deforms continuously, then measurements with errors of delta below 90 degrees and without bias find them: almost surely all best fits of the first `k` measurements approach the truth. | C183_posterior: and so does the posterior, for all proper priors within the set that do not exclude the truth. | C183_converse: conversely, what exact data do not determine no data find. If chi-squared of exact data is 0 at `x1` too, then it is the same at both for all data with deltas from 0 to 360, however many. | C183_film: the thickness of a film between two media. If psi and delta have values for the true thickness, then within some distance of it measurements with errors of delta below 90 degrees and without bias find it: almost surely all best fits approach it. Further away there may be thicknesses with the same psi and delta (`C166_periodic`)."},
  {"property": "C184", "status": "proved", "theorems": ["Verif.Obj.C184_isolated", "Verif.Obj.C184_sensitive", "Verif.Obj.C184_substrate"], "note": "C184_isolated: any structure. If exact data are fitted perfectly by `x0` and by no other parameters near by, and the model deforms continuously there, then within some distance of `x0` measurements with errors of delta below 90 degrees and without bias find it: almost surely all best fits approach it. | C184_sensitive: it suffices that no change of the parameters is without effect on psi and delta to first order. | C184_substrate: the material of a bare substrate, given by any differentiable law. If no change of the parameters leaves the index unchanged to first order at all measured wavelengths, noisy data find them locally."},
  {"property": "C185", "status": "proved", "theorems": ["Verif.Obj.C185_sellmeier", "Verif.Obj.C185_fit", "Verif.Obj.C185_posterior", "Verif.Obj.C185_cauchy"], "note": "C185_sellmeier: a Sellmeier law at four or more wavelengths, of which some or all parameters are fitted, if all parameters in the set have a resonance. | C185_fit: any bare substrate, absorbing or not, measured obliquely below the critical angle. If the indices at the measured wavelengths determine the parameters in a compact set, measurements with errors of delta below 90 degrees and without bias find them: almost surely all best fits of the first `k` measurements approach the truth. | C185_posterior: and so does the posterior, for all proper priors within the set that do not exclude the truth. | C185_cauchy: a Cauchy law at three or more wavelengths, of which some or all parameters are fitted."}
]}
