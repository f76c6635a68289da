{"id": "C01", "title": "Transfer matrix result solves Maxwell's boundary-value problem", "statement": "For every stack, coh_tmm returns for each polarisation exactly the reflection and transmission amplitudes (r, t) for which forward/backward wave amplitudes exist in every layer such that the tangential fields are continuous at every interface, amplitudes pick up the propagation phase inside every layer, the incident amplitude is 1 and nothing comes back from the backing medium. No other (r, t) satisfies those conditions.", "quantifier": "all numbers of layers, complex indices, thicknesses, angles, wavelengths for which the code does not divide by zero and no layer triggers the opaque-layer clip", "why_tests_cant": "Inputs range over a continuum and over stacks of any number of layers; a test samples finitely many stacks.", "anchors": ["refellips/reflect_modelSE.py:coh_tmm", "refellips/reflect_modelSE.py:interface_r_s", "refellips/reflect_modelSE.py:interface_t_p"]}
{"id": "C02", "title": "Bare interface gives the Fresnel coefficients", "statement": "With only a fronting and a backing medium, coh_tmm returns the Fresnel coefficients, with each transmitted angle obeying Snell's law.", "quantifier": "all pairs of complex indices and all angles below 90 degrees", "why_tests_cant": "Inputs range over a continuum and over stacks of any number of layers; a test samples finitely many stacks.", "anchors": ["refellips/reflect_modelSE.py:coh_tmm"]}
{"id": "C03", "title": "One film gives the Airy formula", "statement": "With a single film the reflection amplitude is (r01 + r12 e^{2i delta})/(1 + r01 r12 e^{2i delta}) for both polarisations.", "quantifier": "all films, angles and wavelengths for which the limit of opacity (attenuation exponent 35) is not reached", "why_tests_cant": "Inputs range over a continuum and over stacks of any number of layers; a test samples finitely many stacks.", "anchors": ["refellips/reflect_modelSE.py:coh_tmm"]}
{"id": "C04", "title": "A zero-thickness layer is invisible", "statement": "Inserting a layer of thickness zero anywhere inside a stack changes neither the reflection and transmission amplitudes nor psi and delta.", "quantifier": "all stacks, positions, indices of the inserted layer", "why_tests_cant": "Inputs range over a continuum and over stacks of any number of layers; a test samples finitely many stacks.", "anchors": ["refellips/reflect_modelSE.py:coh_tmm", "refellips/reflect_modelSE.py:Delta_Psi_TMM"]}
{"id": "C05", "title": "Splitting a layer changes nothing", "statement": "Replacing a layer of thickness d1+d2 by two adjacent layers of the same index with thicknesses d1 and d2 leaves r, t, psi and delta unchanged.", "quantifier": "all stacks, positions, indices and thicknesses", "why_tests_cant": "Inputs range over a continuum and over stacks of any number of layers; a test samples finitely many stacks.", "anchors": ["refellips/reflect_modelSE.py:coh_tmm"]}
{"id": "C06", "title": "A layer matching the backing medium is invisible in reflection", "statement": "A last layer with the same index as the backing medium, of any thickness, does not change psi or delta.", "quantifier": "all stacks and thicknesses, angles below 90 degrees, no layer exactly at its critical angle", "why_tests_cant": "Inputs range over a continuum and over stacks of any number of layers; a test samples finitely many stacks.", "anchors": ["refellips/reflect_modelSE.py:coh_tmm", "refellips/reflect_modelSE.py:Delta_Psi_TMM"]}
{"id": "C07", "title": "A layer matching the fronting medium is invisible to the ellipsometer", "statement": "A first layer with the same index as the fronting medium, of any thickness, does not change psi or delta.", "quantifier": "all stacks and thicknesses, angles below 90 degrees, no layer exactly at its critical angle", "why_tests_cant": "Inputs range over a continuum and over stacks of any number of layers; a test samples finitely many stacks.", "anchors": ["refellips/reflect_modelSE.py:coh_tmm", "refellips/reflect_modelSE.py:Delta_Psi_TMM"]}
{"id": "C08", "title": "Reflectance never exceeds one", "statement": "For a transparent fronting medium and passive layers (positive n, non-negative k), |r_s| <= 1 and |r_p| <= 1; more precisely reflected plus transmitted power never exceeds the incident power.", "quantifier": "all passive stacks, any number of layers, thicknesses >= 0, wavelengths > 0, angles below 90 degrees", "why_tests_cant": "Inputs range over a continuum and over stacks of any number of layers; a test samples finitely many stacks.", "anchors": ["refellips/reflect_modelSE.py:coh_tmm"]}
{"id": "C09", "title": "Energy conservation in lossless stacks", "statement": "If no layer absorbs, reflected plus transmitted power equals the incident power for both polarisations.", "quantifier": "all lossless stacks", "why_tests_cant": "Inputs range over a continuum and over stacks of any number of layers; a test samples finitely many stacks.", "anchors": ["refellips/reflect_modelSE.py:coh_tmm"]}
{"id": "C10", "title": "A physical stack never yields NaN reflection amplitudes", "statement": "For a passive stack with no layer exactly at its critical angle, none of the divisions in coh_tmm has a zero denominator: r and t are finite for both polarisations.", "quantifier": "all passive stacks", "why_tests_cant": "Inputs range over a continuum and over stacks of any number of layers; a test samples finitely many stacks.", "anchors": ["refellips/reflect_modelSE.py:coh_tmm"]}
{"id": "C11", "title": "Snell's law in every layer, independent of branch", "statement": "The angle used for each layer satisfies n_j sin(theta_j) = n_0 sin(theta_0); replacing the propagation direction of any interior layer by its opposite does not change r or t.", "quantifier": "all stacks", "why_tests_cant": "Inputs range over a continuum and over stacks of any number of layers; a test samples finitely many stacks.", "anchors": ["refellips/reflect_modelSE.py:coh_tmm"]}
{"id": "C12", "title": "The wave in the backing medium decays away from the interface", "statement": "The z wavevector used for the backing (and every layer) has non-negative imaginary part, so the transmitted wave decays and Delta has the physical sign, including total internal reflection.", "quantifier": "all passive media and angles", "why_tests_cant": "Branch-cut behaviour depends on exact values (lossless index, angle beyond critical) that no sampled test hits.", "anchors": ["refellips/reflect_modelSE.py:coh_tmm"]}
{"id": "C13", "title": "The sign of the angle of incidence is irrelevant", "statement": "psi and delta are the same for angle of incidence +a and -a (FilmSense files carry negative nominal angles).", "quantifier": "all stacks and angles", "why_tests_cant": "Inputs range over a continuum and over stacks of any number of layers; a test samples finitely many stacks.", "anchors": ["refellips/reflect_modelSE.py:Delta_Psi_TMM", "refellips/dataSE.py:open_FilmSenseFile"]}
{"id": "C14", "title": "psi and delta encode the complex reflectance ratio", "statement": "r_p = r_s * tan(psi) * exp(-i delta) (delta before offset, degrees), with 0 <= psi < 90 and 0 <= delta <= 360.", "quantifier": "all stacks with finite amplitudes, r_s and r_p nonzero", "why_tests_cant": "Inputs range over a continuum and over stacks of any number of layers; a test samples finitely many stacks.", "anchors": ["refellips/reflect_modelSE.py:Delta_Psi_TMM"]}
{"id": "C15", "title": "Reflected delta convention", "statement": "With reflect_delta the returned delta (before offset) is min(d, 360 - d) of the unreflected one, hence lies in [0, 180]; psi is unaffected.", "quantifier": "all inputs", "why_tests_cant": "Inputs range over a continuum and over stacks of any number of layers; a test samples finitely many stacks.", "anchors": ["refellips/reflect_modelSE.py:Delta_Psi_TMM"]}
{"id": "C16", "title": "delta_offset is purely additive", "statement": "Changing delta_offset by c shifts every delta by exactly c and leaves every psi unchanged.", "quantifier": "all inputs and offsets", "why_tests_cant": "Inputs range over a continuum and over stacks of any number of layers; a test samples finitely many stacks.", "anchors": ["refellips/reflect_modelSE.py:Delta_Psi_TMM", "refellips/reflect_modelSE.py:ReflectModelSE.model"]}
{"id": "C17", "title": "Ignored inputs are really ignored", "statement": "psi and delta do not depend on the extinction coefficient of the fronting medium, on the thicknesses of the fronting and backing slabs, or on any roughness.", "quantifier": "all layer arrays", "why_tests_cant": "Inputs range over a continuum and over stacks of any number of layers; a test samples finitely many stacks.", "anchors": ["refellips/reflect_modelSE.py:Delta_Psi_TMM"]}
{"id": "C18", "title": "Only the ratio of thickness to wavelength matters", "statement": "Scaling every layer thickness and the wavelength by the same non-zero factor leaves psi and delta unchanged (thickness in Angstrom, wavelength in nm).", "quantifier": "all stacks and factors", "why_tests_cant": "Inputs range over a continuum and over stacks of any number of layers; a test samples finitely many stacks.", "anchors": ["refellips/reflect_modelSE.py:Delta_Psi_TMM", "refellips/reflect_modelSE.py:coh_tmm"]}
{"id": "C19", "title": "Batch evaluation equals point-by-point evaluation", "statement": "Calling a ReflectModelSE on an (N,2) array of (wavelength, angle) gives at row i exactly what calling it on row i alone gives, whatever the other rows, their order or duplicates.", "quantifier": "all arrays of points, all structures", "why_tests_cant": "Requires all batch compositions; grouping by unique wavelength and the any() test in the opaque clip couple rows in the code.", "anchors": ["refellips/reflect_modelSE.py:ReflectModelSE.model", "refellips/reflect_modelSE.py:coh_tmm"]}
{"id": "C20", "title": "Model evaluation is history independent", "statement": "The result of calling the model depends only on the current parameter values and settings, not on earlier calls or on the wavelength earlier left in the structure; after a call on a non-empty array structure.wavelength is the largest wavelength of that array.", "quantifier": "all histories of calls", "why_tests_cant": "Quantifies over all call histories.", "anchors": ["refellips/reflect_modelSE.py:ReflectModelSE.model", "refellips/structureSE.py:StructureSE.slabs"]}
{"id": "C21", "title": "Results are not truncated", "statement": "The values returned by the model are the computed psi and delta, whatever numeric dtype the wavelength/angle array has.", "quantifier": "all dtypes and values", "why_tests_cant": "Only float arrays are ever tested.", "anchors": ["refellips/reflect_modelSE.py:ReflectModelSE.model"]}
{"id": "C22", "title": "Opaque-layer clip is confined to opaque layers", "statement": "The clip changes the phase only of layers whose single-pass attenuation exponent exceeds 35 and only at the points where it does; it keeps the real phase, and the clipped layer still transmits no more than e^-35 in amplitude.", "quantifier": "all delta arrays", "why_tests_cant": "Inputs range over a continuum and over stacks of any number of layers; a test samples finitely many stacks.", "anchors": ["refellips/reflect_modelSE.py:coh_tmm"]}
{"id": "C23", "title": "Delta_Psi_TMM leaves its input usable", "statement": "The layers array passed to Delta_Psi_TMM is changed at most in the fronting extinction entry (set to 0), and calling it again on the same array gives the same result.", "quantifier": "all layer arrays", "why_tests_cant": "Inputs range over a continuum and over stacks of any number of layers; a test samples finitely many stacks.", "anchors": ["refellips/reflect_modelSE.py:Delta_Psi_TMM"]}
{"id": "C24", "title": "A layer with no solvent keeps its own index", "statement": "For every mixing rule, overall_ri(A, B, vf=0) is A.", "quantifier": "all indices with n > 0, depolarisation factors in [0,1)", "why_tests_cant": "Inputs range over a continuum and over stacks of any number of layers; a test samples finitely many stacks.", "anchors": ["refellips/structureSE.py:overall_ri"]}
{"id": "C25", "title": "A fully solvated layer has the solvent's index", "statement": "For every mixing rule, overall_ri(A, B, vf=1) is B.", "quantifier": "all indices with n > 0, depolarisation factors in [0,1)", "why_tests_cant": "Inputs range over a continuum and over stacks of any number of layers; a test samples finitely many stacks.", "anchors": ["refellips/structureSE.py:overall_ri"]}
{"id": "C26", "title": "Mixing a material with itself changes nothing", "statement": "overall_ri(A, A, vf) = A for every mixing rule and volume fraction.", "quantifier": "all indices with positive n, vf, depolarisation factors", "why_tests_cant": "Inputs range over a continuum and over stacks of any number of layers; a test samples finitely many stacks.", "anchors": ["refellips/structureSE.py:overall_ri"]}
{"id": "C27", "title": "Linear and Bruggeman mixing are symmetric", "statement": "overall_ri(A, B, vf) = overall_ri(B, A, 1-vf) for linear and bruggeman.", "quantifier": "all indices, vf, depolarisation factors", "why_tests_cant": "Inputs range over a continuum and over stacks of any number of layers; a test samples finitely many stacks.", "anchors": ["refellips/structureSE.py:overall_ri"]}
{"id": "C28", "title": "Bruggeman mixing solves the Bruggeman equation", "statement": "The bruggeman result e satisfies (1-f)(ea-e)/(e+L(ea-e)) + f(eb-e)/(e+L(eb-e)) = 0 where L is the depolarisation factor.", "quantifier": "all dielectric functions and L in (0,1) with non-vanishing denominators", "why_tests_cant": "Inputs range over a continuum and over stacks of any number of layers; a test samples finitely many stacks.", "anchors": ["refellips/structureSE.py:overall_ri"]}
{"id": "C29", "title": "Mixed dielectric constant lies between the constituents", "statement": "For transparent materials and 0 <= vf <= 1, 0 <= L < 1, each mixing rule returns a real index between the two constituent indices, and it is monotone in vf for the linear rule.", "quantifier": "all positive real indices, vf, L", "why_tests_cant": "Inputs range over a continuum and over stacks of any number of layers; a test samples finitely many stacks.", "anchors": ["refellips/structureSE.py:overall_ri"]}
{"id": "C30", "title": "Mixing passive materials gives a passive material", "statement": "If both materials have k >= 0 (and n > 0) and 0 <= vf <= 1 then the mixed index has n >= 0 and k >= 0.", "quantifier": "all passive constituents, vf, L", "why_tests_cant": "Inputs range over a continuum and over stacks of any number of layers; a test samples finitely many stacks.", "anchors": ["refellips/structureSE.py:overall_ri"]}
{"id": "C31", "title": "Limiting depolarisation factors", "statement": "L = 0 makes maxwell-garnett and bruggeman equal to linear mixing; L = 1 makes maxwell-garnett the harmonic (series) mixture.", "quantifier": "all constituents and vf", "why_tests_cant": "Inputs range over a continuum and over stacks of any number of layers; a test samples finitely many stacks.", "anchors": ["refellips/structureSE.py:overall_ri"]}
{"id": "C32", "title": "Every admissible depolarisation factor gives a usable index", "statement": "For every depolarisation factor accepted by StructureSE.depolarisation_factor and every known mixing rule, the mixed index of two transparent materials is non-zero; unknown mixing rules raise RuntimeError.", "quantifier": "all L in [0,1], all rule names", "why_tests_cant": "Inputs range over a continuum and over stacks of any number of layers; a test samples finitely many stacks.", "anchors": ["refellips/structureSE.py:overall_ri", "refellips/structureSE.py:StructureSE.depolarisation_factor"]}
{"id": "C33", "title": "Depolarisation factor stays in [0,1]", "statement": "Whatever sequence of constructor call and assignments is made, structure.depolarisation_factor is in [0,1]; a rejected assignment raises ValueError and leaves the old value.", "quantifier": "all sequences of assignments", "why_tests_cant": "Quantifies over all histories.", "anchors": ["refellips/structureSE.py:StructureSE.__init__", "refellips/structureSE.py:StructureSE.depolarisation_factor"]}
{"id": "C34", "title": "Building with | concatenates components", "statement": "a | b has the components of a followed by those of b (a bare scatterer contributes one zero-thickness slab), independent of bracketing, and neither operand is changed.", "quantifier": "all structures/components/scatterers, any nesting", "why_tests_cant": "All expression trees.", "anchors": ["refellips/structureSE.py:StructureSE.__or__", "refellips/structureSE.py:StructureSE.__ior__", "refellips/structureSE.py:ComponentSE.__or__"]}
{"id": "C35", "title": "Settings survive composition", "statement": "Extending a structure with | keeps the solvent, mixing rule, depolarisation factor, reverse flag, contraction and wavelength that were set on it.", "quantifier": "all structures and settings", "why_tests_cant": "All settings combinations.", "anchors": ["refellips/structureSE.py:StructureSE.__or__"]}
{"id": "C36", "title": "Copying a structure preserves its slabs", "statement": "copy.copy(structure).slabs() equals structure.slabs().", "quantifier": "all structures and settings", "why_tests_cant": "All settings combinations.", "anchors": ["refellips/structureSE.py:StructureSE.__copy__"]}
{"id": "C37", "title": "Repeating a component", "statement": "component * n is a structure with n references to the component for n >= 2, the component itself for n = 1 and an empty structure for n < 1.", "quantifier": "all integers n", "why_tests_cant": "All n.", "anchors": ["refellips/structureSE.py:ComponentSE.__mul__"]}
{"id": "C38", "title": "Only components can enter a structure", "statement": "Whatever sequence of appends, |= and constructor calls is made, a structure holds only ComponentSE objects; anything else raises ValueError without changing the structure (or, in the constructor, is dropped).", "quantifier": "all operation sequences", "why_tests_cant": "All histories.", "anchors": ["refellips/structureSE.py:StructureSE.append", "refellips/structureSE.py:StructureSE.__ior__", "refellips/structureSE.py:StructureSE.__init__"]}
{"id": "C39", "title": "slabs has one row per slab in component order", "statement": "slabs() of an all-slab structure with default interfaces has one row per component in order, with the current parameter values for thickness, roughness and solvent fraction; empty structures give None; a structure whose first or last component is not a SlabSE raises ValueError.", "quantifier": "all structures and parameter values", "why_tests_cant": "Inputs range over a continuum and over stacks of any number of layers; a test samples finitely many stacks.", "anchors": ["refellips/structureSE.py:StructureSE.slabs", "refellips/structureSE.py:SlabSE.slabs", "refellips/structureSE.py:MixedSlabSE.slabs"]}
{"id": "C40", "title": "Reversing a structure", "statement": "With reverse_structure the rows of slabs() come in reverse order, every interface keeps its roughness (the roughness between two layers is the same number in both representations), the new first row has roughness 0; thickness, index (when unsolvated) and solvent fraction of each layer are kept.", "quantifier": "all structures", "why_tests_cant": "Inputs range over a continuum and over stacks of any number of layers; a test samples finitely many stacks.", "anchors": ["refellips/structureSE.py:StructureSE.slabs"]}
{"id": "C41", "title": "Solvation only affects indices of interior layers", "statement": "Solvation never changes thickness, roughness or solvent-fraction columns, nor the first and last rows; if no slab has a positive solvent fraction no row is changed.", "quantifier": "all structures, mixing rules", "why_tests_cant": "Inputs range over a continuum and over stacks of any number of layers; a test samples finitely many stacks.", "anchors": ["refellips/structureSE.py:StructureSE.slabs", "refellips/structureSE.py:StructureSE.overall_ri"]}
{"id": "C42", "title": "Default solvent is the backing medium", "statement": "Without an explicit solvent the layers are mixed with the index of the last slab after any reversal, and this equals setting solvent to the scatterer of that slab explicitly.", "quantifier": "all structures", "why_tests_cant": "Inputs range over a continuum and over stacks of any number of layers; a test samples finitely many stacks.", "anchors": ["refellips/structureSE.py:StructureSE.slabs"]}
{"id": "C43", "title": "Dry layers are unaffected by neighbours' solvation", "statement": "In a structure in which some layers are solvated, a layer with solvent fraction 0 keeps the index of its own material.", "quantifier": "all structures, all mixing rules, all materials incl. metals", "why_tests_cant": "Inputs range over a continuum and over stacks of any number of layers; a test samples finitely many stacks.", "anchors": ["refellips/structureSE.py:StructureSE.slabs", "refellips/structureSE.py:overall_ri"]}
{"id": "C44", "title": "Wavelength plumbing", "statement": "slabs() evaluates every dispersive scatterer (layers, mixtures and solvent) at structure.wavelength, falling back to the scatterer's own default when it is None or 0; slabs(wavelength=w) uses w and leaves structure.wavelength = w.", "quantifier": "all structures and wavelengths", "why_tests_cant": "Inputs range over a continuum and over stacks of any number of layers; a test samples finitely many stacks.", "anchors": ["refellips/structureSE.py:StructureSE.slabs", "refellips/dispersion.py:RI.complex"]}
{"id": "C45", "title": "Alignment of profiles", "statement": "ri_profile(align=i) puts interface i at z = 0: the profile is shifted by the total thickness of the layers above it; negative i counts from the back; indices outside the valid range raise RuntimeError.", "quantifier": "all structures and integers i", "why_tests_cant": "Inputs range over a continuum and over stacks of any number of layers; a test samples finitely many stacks.", "anchors": ["refellips/structureSE.py:StructureSE.ri_profile"]}
{"id": "C46", "title": "Tabulated dispersion is the piecewise linear interpolant", "statement": "RI.complex returns the tabulated (n,k) at the table's wavelengths, lies between neighbouring entries in between, and is constant outside the table.", "quantifier": "all strictly increasing tables and wavelengths", "why_tests_cant": "Inputs range over a continuum and over stacks of any number of layers; a test samples finitely many stacks.", "anchors": ["refellips/dispersion.py:RI.complex"]}
{"id": "C47", "title": "Constructing a material does not modify the caller's data", "statement": "RI((wav, n, k)) leaves the caller's arrays unchanged, so building two materials from the same arrays gives equal materials.", "quantifier": "all arrays", "why_tests_cant": "Aliasing only shows on reuse.", "anchors": ["refellips/dispersion.py:RI.__init__"]}
{"id": "C48", "title": "nm/eV conversion is an order-reversing involution", "statement": "nm_eV_conversion applied twice is the identity on non-zero values, and it is strictly decreasing on positive values; wavelength in nm times photon energy in eV is h c / e to a relative accuracy of 3e-10.", "quantifier": "all non-zero values", "why_tests_cant": "Inputs range over a continuum and over stacks of any number of layers; a test samples finitely many stacks.", "anchors": ["refellips/structureSE.py:nm_eV_conversion"]}
{"id": "C49", "title": "Cauchy dispersion", "statement": "Cauchy.complex is A + B/l^2 + C/l^4 with l in microns and zero extinction; with B, C >= 0 the index decreases with wavelength.", "quantifier": "all parameters and wavelengths > 0", "why_tests_cant": "Inputs range over a continuum and over stacks of any number of layers; a test samples finitely many stacks.", "anchors": ["refellips/dispersion.py:Cauchy.complex"]}
{"id": "C50", "title": "Sellmeier dispersion", "statement": "Sellmeier.complex is real, its square is Sellmeier.epsilon whenever that is non-negative, and on either side of the resonance the index decreases with wavelength for Am, P >= 0.", "quantifier": "all parameters and wavelengths", "why_tests_cant": "Inputs range over a continuum and over stacks of any number of layers; a test samples finitely many stacks.", "anchors": ["refellips/dispersion.py:Sellmeier.complex", "refellips/dispersion.py:Sellmeier.epsilon"]}
{"id": "C51", "title": "Lorentz oscillators are passive and order independent", "statement": "For non-negative amplitudes and broadenings the imaginary part of epsilon is >= 0 at every non-negative energy, hence n >= 0 and k >= 0; permuting oscillators does not change it; concatenating oscillator lists adds their contributions.", "quantifier": "all oscillator lists of any length", "why_tests_cant": "Inputs range over a continuum and over stacks of any number of layers; a test samples finitely many stacks.", "anchors": ["refellips/dispersion.py:Lorentz.epsilon"]}
{"id": "C52", "title": "Tauc-Lorentz absorption edge", "statement": "The imaginary part of epsilon is exactly 0 at and below the gap and >= 0 above it for non-negative amplitude.", "quantifier": "all oscillator lists", "why_tests_cant": "Inputs range over a continuum and over stacks of any number of layers; a test samples finitely many stacks.", "anchors": ["refellips/dispersion.py:TaucLorentz.epsilon"]}
{"id": "C53", "title": "Tauc-Lorentz is defined on its documented domain", "statement": "epsilon is finite for every documented parameter choice (0 < C < 2 En, Eg < En) and every positive energy.", "quantifier": "all documented parameter choices", "why_tests_cant": "Boundary regions of parameter space.", "anchors": ["refellips/dispersion.py:TaucLorentz.epsilon"]}
{"id": "C54", "title": "Gauss oscillators absorb, never emit", "statement": "For non-negative amplitudes, Im epsilon >= 0 for every energy >= 0; contributions of oscillators add; the Kramers-Kronig partner averages to Einf over the grid.", "quantifier": "all oscillator lists, all energies", "why_tests_cant": "Inputs range over a continuum and over stacks of any number of layers; a test samples finitely many stacks.", "anchors": ["refellips/dispersion.py:Gauss.epsilon"]}
{"id": "C55", "title": "Refractive index is the principal root of the dielectric function", "statement": "For oscillator materials complex(w)**2 = epsilon(nm_eV(w)) with n >= 0; if Im epsilon >= 0 then k >= 0.", "quantifier": "all epsilon", "why_tests_cant": "Inputs range over a continuum and over stacks of any number of layers; a test samples finitely many stacks.", "anchors": ["refellips/structureSE.py:ScattererSE.complex"]}
{"id": "C56", "title": "Oscillator parameter lists must match", "statement": "Lorentz, Gauss and TaucLorentz raise ValueError exactly when the three parameter lists differ in length.", "quantifier": "all lists", "why_tests_cant": "Inputs range over a continuum and over stacks of any number of layers; a test samples finitely many stacks.", "anchors": ["refellips/dispersion.py:Lorentz.__init__", "refellips/dispersion.py:Gauss.__init__", "refellips/dispersion.py:TaucLorentz.__init__"]}
{"id": "C57", "title": "Bundled materials are usable", "statement": "load_material raises ValueError exactly for names not in refellips.materials; every bundled curve has increasing wavelengths, positive n and non-negative k, so the interpolated index is physical at every wavelength.", "quantifier": "all names; all wavelengths over the bundled tables", "why_tests_cant": "Inputs range over a continuum and over stacks of any number of layers; a test samples finitely many stacks.", "anchors": ["refellips/dispersion.py:load_material", "refellips/materials"]}
{"id": "C58", "title": "Array evaluation equals element-wise evaluation", "statement": "complex(array)[i] = complex(array[i]) for every dispersion model.", "quantifier": "all arrays of non-zero wavelengths", "why_tests_cant": "Inputs range over a continuum and over stacks of any number of layers; a test samples finitely many stacks.", "anchors": ["refellips/dispersion.py:RI.complex", "refellips/dispersion.py:Cauchy.complex", "refellips/dispersion.py:Lorentz.epsilon"]}
{"id": "C59", "title": "Masking", "statement": "wavelength, aoi, psi, delta are the unmasked entries in order, all four with the same length len(data) = number of True mask entries; the points stay aligned.", "quantifier": "all datasets and masks", "why_tests_cant": "Inputs range over a continuum and over stacks of any number of layers; a test samples finitely many stacks.", "anchors": ["refellips/dataSE.py:DataSE.wavelength", "refellips/dataSE.py:DataSE.data", "refellips/dataSE.py:DataSE.__len__"]}
{"id": "C60", "title": "Setting data copies and clears the mask", "statement": "After data.data = (w, a, p, d) the accessors return exactly w, a, p, d, later changes to the caller's arrays are not seen, and the mask is cleared.", "quantifier": "all datasets", "why_tests_cant": "All histories.", "anchors": ["refellips/dataSE.py:DataSE.data"]}
{"id": "C61", "title": "Reflecting delta on load", "statement": "DataSE(..., reflect_delta=True) maps each delta to 360 - delta exactly when delta > 180, giving values <= 180; applying it twice is the same as once.", "quantifier": "all delta arrays", "why_tests_cant": "Inputs range over a continuum and over stacks of any number of layers; a test samples finitely many stacks.", "anchors": ["refellips/dataSE.py:DataSE.__init__"]}
{"id": "C62", "title": "Constructing a dataset does not modify its source", "statement": "Building a DataSE from arrays or from another DataSE leaves the source unchanged.", "quantifier": "all datasets and options", "why_tests_cant": "Aliasing.", "anchors": ["refellips/dataSE.py:DataSE.__init__"]}
{"id": "C63", "title": "Copy construction preserves the dataset", "statement": "DataSE(other) presents the same points as other and is fitted with the same delta convention.", "quantifier": "all datasets", "why_tests_cant": "State combinations.", "anchors": ["refellips/dataSE.py:DataSE.__init__", "refellips/objectiveSE.py:ObjectiveSE.__init__"]}
{"id": "C64", "title": "Save/load round trip", "statement": "Saving a dataset of at least two points and loading the file gives the same four columns with a cleared mask; masked-out points are saved too.", "quantifier": "all datasets", "why_tests_cant": "Inputs range over a continuum and over stacks of any number of layers; a test samples finitely many stacks.", "anchors": ["refellips/dataSE.py:DataSE.save", "refellips/dataSE.py:DataSE.load"]}
{"id": "C65", "title": "A truncated save loads as a prefix", "statement": "If a save is interrupted after whole lines (header plus k >= 2 data lines on disk), load returns exactly the first k points.", "quantifier": "all datasets and crash points", "why_tests_cant": "All crash points.", "anchors": ["refellips/dataSE.py:DataSE.save", "refellips/dataSE.py:DataSE.load"]}
{"id": "C66", "title": "Header skipping", "statement": "Loading a file by name skips exactly the leading lines (at most 100) whose first field is not a number and reads every following data line.", "quantifier": "all files", "why_tests_cant": "Inputs range over a continuum and over stacks of any number of layers; a test samples finitely many stacks.", "anchors": ["refellips/dataSE.py:DataSE.load"]}
{"id": "C67", "title": "Loading from a file handle equals loading by name", "statement": "DataSE(open(f)) and DataSE(f) give the same points; refresh() re-reads the same points that the original load read; open_M2000file(open(f)) and open_M2000file(f) give the same datasets.", "quantifier": "all files", "why_tests_cant": "Stream position state.", "anchors": ["refellips/dataSE.py:DataSE.load", "refellips/dataSE.py:DataSE.refresh", "refellips/dataSE.py:open_M2000file"]}
{"id": "C68", "title": "Iterating unique wavelengths partitions the data", "statement": "unique_wavelength_data yields each distinct unmasked wavelength once, in increasing order, with all and only its points in order.", "quantifier": "all datasets and masks", "why_tests_cant": "Inputs range over a continuum and over stacks of any number of layers; a test samples finitely many stacks.", "anchors": ["refellips/dataSE.py:DataSE.unique_wavelength_data"]}
{"id": "C69", "title": "EP4 areas partition the file", "statement": "For a single-time file, the position areas found by open_EP4file are contiguous, cover every row exactly once, and all rows of an area are within tolerance of its first row.", "quantifier": "all files", "why_tests_cant": "Inputs range over a continuum and over stacks of any number of layers; a test samples finitely many stacks.", "anchors": ["refellips/dataSE.py:_loadEP4"]}
{"id": "C70", "title": "EP4 time series lose no data", "statement": "In a time series every row of the file contributes to exactly one dataset, labelled with its time.", "quantifier": "all files", "why_tests_cant": "Index arithmetic depends on file layout.", "anchors": ["refellips/dataSE.py:open_EP4file", "refellips/dataSE.py:_loadEP4"]}
{"id": "C71", "title": "EP4 averaging", "statement": "Within an area there is one point per distinct (AOI, wavelength), sorted, whose psi and delta are the arithmetic means of the repeats, independent of row order.", "quantifier": "all row lists", "why_tests_cant": "Inputs range over a continuum and over stacks of any number of layers; a test samples finitely many stacks.", "anchors": ["refellips/dataSE.py:_loadEP4"]}
{"id": "C72", "title": "Averaged delta lies among its repeats on the circle", "statement": "The averaged delta of repeated measurements is no further (on the circle) from the repeats than they are from each other.", "quantifier": "all repeats", "why_tests_cant": "Wrap-around at 360.", "anchors": ["refellips/dataSE.py:_loadEP4"]}
{"id": "C73", "title": "custom_round", "statement": "custom_round returns a multiple of base to two decimals within base/2 + 0.005 of the input.", "quantifier": "all reals", "why_tests_cant": "Inputs range over a continuum and over stacks of any number of layers; a test samples finitely many stacks.", "anchors": ["refellips/dataSE.py:custom_round"]}
{"id": "C74", "title": "HORIBA metadata parsing", "statement": "Every '#'-titled block of a .spe file becomes one metadata entry: None if empty, the line itself if it has one line, the list of lines otherwise; block titles and line numbers are recovered exactly.", "quantifier": "all files made of blank-line terminated blocks", "why_tests_cant": "Inputs range over a continuum and over stacks of any number of layers; a test samples finitely many stacks.", "anchors": ["refellips/dataSE.py:open_HORIBAfile"]}
{"id": "C75", "title": "HORIBA wavelength cut-offs", "statement": "The points kept are exactly those with wavelength strictly between the cut-offs, in file order.", "quantifier": "all data and cut-offs", "why_tests_cant": "Inputs range over a continuum and over stacks of any number of layers; a test samples finitely many stacks.", "anchors": ["refellips/dataSE.py:open_HORIBAfile"]}
{"id": "C76", "title": "Woollam static files", "statement": "open_M2000file on a static file returns, in order, wavelength/angle/psi/delta of the measurement lines with index 0, m, 2m, ... (m = dropdatapoints).", "quantifier": "all files and m >= 1", "why_tests_cant": "Inputs range over a continuum and over stacks of any number of layers; a test samples finitely many stacks.", "anchors": ["refellips/dataSE.py:_open_M2000file_standard"]}
{"id": "C77", "title": "Woollam kinetic files", "statement": "Each time t of a kinetic file whose rank is a multiple of take_every yields one dataset keyed by its time in seconds, with all its points decimated by dropdatapoints.", "quantifier": "all files", "why_tests_cant": "Inputs range over a continuum and over stacks of any number of layers; a test samples finitely many stacks.", "anchors": ["refellips/dataSE.py:_open_M2000file_kinetic"]}
{"id": "C78", "title": "FilmSense N,C,S inversion", "statement": "If N = cos 2psi, C = sin 2psi cos delta, S = sin 2psi sin delta with 0 < psi < 90 and 0 <= delta < 360, the loader returns exactly psi and delta; its delta is always in [0,360) and psi in [0,90].", "quantifier": "all psi, delta", "why_tests_cant": "Inputs range over a continuum and over stacks of any number of layers; a test samples finitely many stacks.", "anchors": ["refellips/dataSE.py:_open_FilmSenseFile_standard", "refellips/dataSE.py:_open_FilmSenseFile_dynamic"]}
{"id": "C79", "title": "FilmSense files are read completely", "statement": "A static file gives numwvls points, a dynamic file gives for each of its numdatasets times a dataset with numwvls points, each wavelength paired with its own N, C, S entries and the nominal angle.", "quantifier": "all files", "why_tests_cant": "Inputs range over a continuum and over stacks of any number of layers; a test samples finitely many stacks.", "anchors": ["refellips/dataSE.py:_open_FilmSenseFile_standard", "refellips/dataSE.py:_open_FilmSenseFile_dynamic"]}
{"id": "C80", "title": "Circular distance", "statement": "circular_distance is the shortest distance between two angles on the circle of the given period.", "quantifier": "all angles", "why_tests_cant": "Inputs range over a continuum and over stacks of any number of layers; a test samples finitely many stacks.", "anchors": ["refellips/objectiveSE.py:circular_distance"]}
{"id": "C81", "title": "Residuals", "statement": "residuals() lists psi_model - psi for every unmasked point followed by the circular distance of delta for every unmasked point; it is all zero iff the model reproduces psi exactly and delta modulo 360.", "quantifier": "all data and models", "why_tests_cant": "Inputs range over a continuum and over stacks of any number of layers; a test samples finitely many stacks.", "anchors": ["refellips/objectiveSE.py:ObjectiveSE.residuals"]}
{"id": "C82", "title": "chi-squared", "statement": "chisqr() is the sum of squared residuals, non-negative, and unchanged if a data delta is replaced by an equivalent angle.", "quantifier": "all data and models", "why_tests_cant": "Inputs range over a continuum and over stacks of any number of layers; a test samples finitely many stacks.", "anchors": ["refellips/objectiveSE.py:ObjectiveSE.chisqr"]}
{"id": "C83", "title": "Log-likelihood", "statement": "logl = -1/2 sum(res^2/s^2 + [weighted] log(2 pi s^2)) with s^2 = 1 + [lnsigma] exp(2 lnsigma) model^2; unweighted and without lnsigma it is -chisqr/2.", "quantifier": "all objectives", "why_tests_cant": "Inputs range over a continuum and over stacks of any number of layers; a test samples finitely many stacks.", "anchors": ["refellips/objectiveSE.py:ObjectiveSE.logl"]}
{"id": "C84", "title": "A fitted error-scale is identifiable", "statement": "The likelihood as a function of lnsigma is not monotone: raising lnsigma is eventually penalised.", "quantifier": "all objectives with lnsigma", "why_tests_cant": "Inputs range over a continuum and over stacks of any number of layers; a test samples finitely many stacks.", "anchors": ["refellips/objectiveSE.py:ObjectiveSE.logl"]}
{"id": "C85", "title": "logp_extra contributes to the posterior", "statement": "A user-supplied logp_extra is added to the log-posterior.", "quantifier": "all callables", "why_tests_cant": "Inputs range over a continuum and over stacks of any number of layers; a test samples finitely many stacks.", "anchors": ["refellips/objectiveSE.py:ObjectiveSE.logl", "refellips/objectiveSE.py:ObjectiveSE.logpost"]}
{"id": "C86", "title": "Setting parameter values", "statement": "setp(None) changes nothing; a vector as long as the varying parameters sets exactly those; a vector as long as all parameters sets all; any other length raises ValueError and changes nothing; reading back gives the vector.", "quantifier": "all parameter sets and vectors", "why_tests_cant": "Inputs range over a continuum and over stacks of any number of layers; a test samples finitely many stacks.", "anchors": ["refellips/objectiveSE.py:ObjectiveSE.setp", "refellips/objectiveSE.py:ObjectiveSE.varying_parameters"]}
{"id": "C87", "title": "Posterior gating", "statement": "logpost is -inf iff the prior is not finite, without evaluating the model; otherwise it is logp + logl.", "quantifier": "all objectives", "why_tests_cant": "Inputs range over a continuum and over stacks of any number of layers; a test samples finitely many stacks.", "anchors": ["refellips/objectiveSE.py:ObjectiveSE.logpost", "refellips/objectiveSE.py:ObjectiveSE.logp"]}
{"id": "C88", "title": "covar leaves the parameters as they were", "statement": "After covar() the varying parameters have the values they had before, whatever the numerical differentiation evaluates and even if it raises.", "quantifier": "all differentiation schedules and exceptions", "why_tests_cant": "All schedules and failure points.", "anchors": ["refellips/objectiveSE.py:ObjectiveSE.covar"]}
{"id": "C89", "title": "Objectives do not interfere", "statement": "Creating a second objective does not change the residuals of an existing one.", "quantifier": "all pairs of objectives, also sharing a model", "why_tests_cant": "Sharing patterns.", "anchors": ["refellips/objectiveSE.py:ObjectiveSE.__init__"]}
{"id": "C90", "title": "Residuals are a function of the parameter vector", "statement": "residuals(p) depends only on p, the fixed parameters, settings and data - not on previously evaluated vectors or wavelengths.", "quantifier": "all histories", "why_tests_cant": "All histories.", "anchors": ["refellips/objectiveSE.py:ObjectiveSE.residuals", "refellips/reflect_modelSE.py:ReflectModelSE.model"]}
{"id": "C91", "title": "npoints counts the fitted points", "statement": "objective.npoints is the number of points entering the residuals.", "quantifier": "all masks", "why_tests_cant": "Inputs range over a continuum and over stacks of any number of layers; a test samples finitely many stacks.", "anchors": ["refellips/objectiveSE.py:ObjectiveSE.npoints"]}
{"id": "C92", "title": "prior_transform", "statement": "prior_transform(u) applies to each varying parameter, in order, the inverse CDF of its own bounds, and nothing else.", "quantifier": "all parameter sets and u", "why_tests_cant": "Inputs range over a continuum and over stacks of any number of layers; a test samples finitely many stacks.", "anchors": ["refellips/objectiveSE.py:ObjectiveSE.prior_transform"]}
{"id": "C93", "title": "Reciprocity of transmission", "statement": "Light travelling through the reversed stack at the corresponding angle is transmitted with the same power.", "quantifier": "all stacks with transparent outer media", "why_tests_cant": "Inputs range over a continuum and over stacks of any number of layers; a test samples finitely many stacks.", "anchors": ["refellips/reflect_modelSE.py:coh_tmm", "refellips/structureSE.py:StructureSE.slabs"]}
{"id": "C94", "title": "Plotting does not change the structure", "statement": "plot_structure leaves reverse_structure and wavelength as they were.", "quantifier": "all structures", "why_tests_cant": "Inputs range over a continuum and over stacks of any number of layers; a test samples finitely many stacks.", "anchors": ["tools/plottools.py:plot_structure"]}
{"id": "C95", "title": "Materials loaded from a file are named after the file", "statement": "RI(path) without an explicit name takes the stem of the file as its name.", "quantifier": "all paths", "why_tests_cant": "Inputs range over a continuum and over stacks of any number of layers; a test samples finitely many stacks.", "anchors": ["refellips/dispersion.py:RI.__init__"]}
{"id": "C96", "title": "Dielectric functions satisfy the reality condition", "statement": "For Gauss and Lorentz oscillators epsilon(-E) is the complex conjugate of epsilon(E): the response of the material to a real field is real.", "quantifier": "all oscillator lists, all energies", "why_tests_cant": "Inputs range over a continuum and over stacks of any number of layers; a test samples finitely many stacks.", "anchors": ["refellips/dispersion.py:Gauss.epsilon", "refellips/dispersion.py:Lorentz.epsilon"]}
{"id": "C97", "title": "Bundled dielectrics are transparent", "statement": "The bundled curves of dielectrics (air, void, dmso, silica, pnipam, polymer_diffuse, aluminium_oxide) have an extinction coefficient of at most 0.01 at every wavelength.", "quantifier": "all wavelengths over the bundled tables", "why_tests_cant": "Inputs range over a continuum and over stacks of any number of layers; a test samples finitely many stacks.", "anchors": ["refellips/dispersion.py:load_material", "refellips/materials"]}
{"id": "C98", "title": "The delta convention flag agrees with the data", "statement": "Whenever a dataset is marked as reflected (so that objectives reflect the model to match), all its deltas are at most 180 degrees: after construction, after assigning data, and after refresh().", "quantifier": "all datasets, all sequences of construction, assignment and refresh", "why_tests_cant": "Only particular sequences of operations can be tried.", "anchors": ["refellips/dataSE.py:DataSE.__init__", "refellips/dataSE.py:DataSE.data", "refellips/dataSE.py:DataSE.refresh"]}
{"id": "C99", "title": "Woollam file headers become metadata", "statement": "The header line VASEmethod[k1=v1, k2=v2, ...] of an M-2000 file becomes metadata with exactly these keys and values; a header with an entry without '=' is refused with ValueError.", "quantifier": "all headers with keys and values free of '=' and commas", "why_tests_cant": "Inputs range over a continuum and over stacks of any number of layers; a test samples finitely many stacks.", "anchors": ["refellips/dataSE.py:open_M2000file"]}
{"id": "C100", "title": "covar is the covariance of the fit", "statement": "With more residuals than varying parameters and a Jacobian J of full rank, covar() returns (J^T J)^-1 for weighted objectives and chisqr/(n - p) (J^T J)^-1 for others, J being the Jacobian of residuals() with respect to the varying parameters at their values before the call - whether J was computed in scaled parameters or, because a parameter is zero, in unscaled ones.", "quantifier": "all Jacobians of full rank, all parameter values", "why_tests_cant": "Inputs range over a continuum and over stacks of any number of layers; a test samples finitely many stacks.", "anchors": ["refellips/objectiveSE.py:ObjectiveSE.covar"]}
{"id": "C101", "title": "covar reports undetermined parameters", "statement": "covar() raises LinAlgError if and only if the residuals do not determine the varying parameters.", "quantifier": "all Jacobians", "why_tests_cant": "Inputs range over a continuum and over stacks of any number of layers; a test samples finitely many stacks.", "anchors": ["refellips/objectiveSE.py:ObjectiveSE.covar"]}
{"id": "C102", "title": "Variances are not negative", "statement": "The matrix covar() returns is symmetric and positive semidefinite; in particular no variance is negative.", "quantifier": "all objectives, all numbers of data and varying parameters", "why_tests_cant": "Inputs range over a continuum and over stacks of any number of layers; a test samples finitely many stacks.", "anchors": ["refellips/objectiveSE.py:ObjectiveSE.covar"]}
{"id": "C103", "title": "parameters lists everything the optics depend on", "statement": "Two states of the parameters which agree on structure.parameters give the same slabs, and two which agree on model.parameters the same model, after any sequence of operations on components and structures: nothing that changes the optics can be missed by a fit over the listed parameters.", "quantifier": "all sequences of operations, all structures", "why_tests_cant": "All histories of objects that share components.", "anchors": ["refellips/structureSE.py:SlabSE.parameters", "refellips/structureSE.py:MixedSlabSE.parameters", "refellips/reflect_modelSE.py:ReflectModelSE.parameters"]}
{"id": "C104", "title": "model(x, p) is a function of p", "statement": "What model(x, p) returns or raises depends on p and on the values of the fixed parameters the model lists only; afterwards the varying parameters have the values p, no other has changed, and model(x) gives the same; a vector of another length is a ValueError and changes nothing.", "quantifier": "all structures, parameter vectors and states", "why_tests_cant": "Inputs range over a continuum and over stacks of any number of layers; a test samples finitely many stacks.", "anchors": ["refellips/reflect_modelSE.py:ReflectModelSE.__call__"]}
{"id": "C105", "title": "Plotting sampled structures leaves the parameters alone", "statement": "structure.plot(samples=n) leaves all parameters as they were; it draws one curve for each sample, in order, and the curve drawn last is the profile for the parameters as they were; plot(pvals) sets the varying parameters and no other.", "quantifier": "all structures, samples and parameter values", "why_tests_cant": "Inputs range over a continuum and over stacks of any number of layers; a test samples finitely many stacks.", "anchors": ["refellips/structureSE.py:StructureSE.plot"]}
{"id": "C106", "title": "Oscillator models are causal", "statement": "The dielectric function of a Lorentz or Tauc-Lorentz model obeys the Kramers-Kronig relations: it is the boundary value of one function, holomorphic above the real axis, tending to Einf and real in the time domain; and its real part is the only one that causality admits for its imaginary part.", "quantifier": "all oscillators (non-negative width for Lorentz; positive width and energy and non-negative gap for Tauc-Lorentz), all energies at which the model is finite", "why_tests_cant": "Inputs range over a continuum and over stacks of any number of layers; a test samples finitely many stacks.", "anchors": ["refellips/dispersion.py:Lorentz.epsilon", "refellips/dispersion.py:TaucLorentz.epsilon"]}
{"id": "C107", "title": "What objective.plot() shows", "statement": "objective.plot() draws the unmasked data and, for each of their angles (or, over angles, for each of their wavelengths), the values of the model at 50 equidistant points from the smallest to the largest wavelength (angle) of the data; the axis is the angle exactly if the data have several; where a curve passes a data point it shows the model values the residuals of that point are computed from.", "quantifier": "all models, datasets and masks", "why_tests_cant": "Inputs range over a continuum and over stacks of any number of layers; a test samples finitely many stacks.", "anchors": ["refellips/objectiveSE.py:ObjectiveSE.plot"]}
{"id": "C108", "title": "What plot_ellipsdata shows", "statement": "plot_ellipsdata(objective=...) draws the unmasked data, a curve of the model for every angle (or wavelength) of the data, and in the residuals panel the two residuals of each data point at its abscissa.", "quantifier": "all models, datasets and masks", "why_tests_cant": "Inputs range over a continuum and over stacks of any number of layers; a test samples finitely many stacks.", "anchors": ["tools/plottools.py:plot_ellipsdata"]}
{"id": "C109", "title": "Names of EP4 datasets", "statement": "The name of a dataset read from an EP4 file identifies its position and its time; so the datasets read from one file, which can be told apart by position or time, have different names.", "quantifier": "all files, file names and number formats that distinguish the numbers in the file", "why_tests_cant": "Inputs range over a continuum and over stacks of any number of layers; a test samples finitely many stacks.", "anchors": ["refellips/dataSE.py:_make_EP4dname", "refellips/dataSE.py:open_EP4file"]}
{"id": "C110", "title": "What plot_structure shows", "statement": "plot_structure(objective) draws the refractive index profile of the model's structure at each distinct wavelength of the data, or, if there are more than eight, at six equidistant ones from the smallest to the largest (at 658 nm for a bare structure); every curve is the profile at the wavelength it is labelled with.", "quantifier": "all structures and datasets", "why_tests_cant": "Inputs range over a continuum and over stacks of any number of layers; a test samples finitely many stacks.", "anchors": ["tools/plottools.py:plot_structure"]}
{"id": "C111", "title": "Normal incidence", "statement": "At zero angle of incidence the two polarisations cannot be told apart: whatever the layers, r_p = -r_s, psi is 45 degrees and delta 180 degrees (plus the offset), and neither has a value if nothing is reflected.", "quantifier": "all stacks, wavelengths and offsets", "why_tests_cant": "Inputs range over a continuum and over stacks of any number of layers; a test samples finitely many stacks.", "anchors": ["refellips/reflect_modelSE.py:coh_tmm", "refellips/reflect_modelSE.py:Delta_Psi_TMM"]}
{"id": "C112", "title": "A substrate can be read off its data", "statement": "psi and delta of a bare substrate at one oblique angle determine its complex index, by the textbook formula for the pseudo-dielectric function; different substrates never give the same data.", "quantifier": "all passive indices, angles, wavelengths and offsets; for the uniqueness also reflected delta", "why_tests_cant": "Inputs range over a continuum and over stacks of any number of layers; a test samples finitely many stacks.", "anchors": ["refellips/reflect_modelSE.py:Delta_Psi_TMM"]}
{"id": "C113", "title": "Brewster angle", "statement": "For a bare transparent substrate delta is 180 degrees below the angle arctan(n/n0) and 0 or 360 above it; at this angle psi is 0 (and delta has no value). psi of a bare surface never exceeds 45 degrees, absorbing or not.", "quantifier": "all indices and angles (below the critical angle)", "why_tests_cant": "Inputs range over a continuum and over stacks of any number of layers; a test samples finitely many stacks.", "anchors": ["refellips/reflect_modelSE.py:Delta_Psi_TMM"]}
{"id": "C114", "title": "Interference repeats", "statement": "Making a transparent film thicker by a whole multiple of wavelength/(2 sqrt(n^2-(n0 sin(angle))^2)) changes neither psi nor delta, wherever the film is in the stack; so the data at one angle and wavelength fix the thickness of a film only up to this period.", "quantifier": "all stacks, wavelengths, angles, offsets and multiples; film below its critical angle", "why_tests_cant": "Inputs range over a continuum and over stacks of any number of layers; a test samples finitely many stacks.", "anchors": ["refellips/reflect_modelSE.py:coh_tmm", "refellips/reflect_modelSE.py:Delta_Psi_TMM"]}
{"id": "C115", "title": "Only ratios of indices matter", "statement": "Multiplying all refractive indices (fronting medium included) and the wavelength by the same positive number leaves psi and delta unchanged.", "quantifier": "all stacks, wavelengths, angles, offsets and factors", "why_tests_cant": "Inputs range over a continuum and over stacks of any number of layers; a test samples finitely many stacks.", "anchors": ["refellips/reflect_modelSE.py:coh_tmm", "refellips/reflect_modelSE.py:Delta_Psi_TMM"]}
{"id": "C116", "title": "Small changes have small effects", "statement": "psi and delta depend continuously on the thicknesses and indices of all layers, the angle and the wavelength (delta as an angle: 0 and 360 are the same).", "quantifier": "all stacks and all ways of varying their parameters", "why_tests_cant": "Inputs range over a continuum and over stacks of any number of layers; a test samples finitely many stacks.", "anchors": ["refellips/reflect_modelSE.py:coh_tmm", "refellips/reflect_modelSE.py:Delta_Psi_TMM"]}
{"id": "C117", "title": "A model computes the optics of its structure", "statement": "model(x) gives, at every (wavelength, angle) of x, psi and delta of the unique solution of Maxwell's boundary value problem for the layers of the structure: in order or in reverse if reverse_structure is set, each with the index of its material at this wavelength, mixed with the solvent (the structure's, or else the backing medium) by its volume fraction, and with its thickness in Angstrom; r_p = r_s tan(psi) exp(-i delta), plus the offset, reflected if the data are.", "quantifier": "all structures of slabs and mixed slabs of the package's materials with default interfaces and each mixing rule (Bruggeman: dielectrics), all arrays of wavelengths and angles; passive layers, no total reflection by a transparent backing medium", "why_tests_cant": "Inputs range over a continuum and over stacks of any number of layers; a test samples finitely many stacks.", "anchors": ["refellips/reflect_modelSE.py:ReflectModelSE.model", "refellips/structureSE.py:StructureSE.slabs", "refellips/reflect_modelSE.py:Delta_Psi_TMM"]}
{"id": "C118", "title": "Transform is applied", "statement": "If a transform is given to ObjectiveSE, residuals (and chisqr, logl, logpost) compare the transformed model with the transformed data.", "quantifier": "all objectives, transforms and data", "why_tests_cant": "a test tries one transform on one dataset", "anchors": ["refellips/objectiveSE.py:ObjectiveSE.__init__", "refellips/objectiveSE.py:ObjectiveSE.residuals"]}
{"id": "C119", "title": "Data of an objective", "statement": "ObjectiveSE(model, data) compares the model with the points that data presents: those of a DataSE or of a subclass, with its mask and its convention for delta, those of four arrays, or those of a file. Any other object is an error.", "quantifier": "all data arguments and models", "why_tests_cant": "the kinds of argument, masks and conventions are open-ended", "anchors": ["refellips/objectiveSE.py:ObjectiveSE.__init__", "refellips/dataSE.py:DataSE.__init__"]}
{"id": "C120", "title": "Points contribute independently", "statement": "Residuals, chisqr and logl depend only on the points that the data present (not on how the data object was made, on its mask or on masked points). Reordering the points does not change chisqr and logl, and measuring two sets of points together gives the sum of their chisqr and of their logl.", "quantifier": "all objectives, models and data", "why_tests_cant": "Inputs range over a continuum and over stacks of any number of layers; a test samples finitely many stacks.", "anchors": ["refellips/objectiveSE.py:ObjectiveSE.residuals", "refellips/objectiveSE.py:ObjectiveSE.chisqr", "refellips/objectiveSE.py:ObjectiveSE.logl"]}
{"id": "C121", "title": "Misfit is continuous", "statement": "If the parameters of a structure change little, the residuals and chisqr change little, also where delta wraps around from 360 to 0.", "quantifier": "all structures, data and ways of varying the parameters", "why_tests_cant": "Inputs range over a continuum and over stacks of any number of layers; a test samples finitely many stacks.", "anchors": ["refellips/objectiveSE.py:ObjectiveSE.residuals", "refellips/objectiveSE.py:circular_distance", "refellips/objectiveSE.py:ObjectiveSE.chisqr"]}
{"id": "C122", "title": "Mixing rules are their equations", "statement": "For passive materials each mixing rule returns the only passive index whose square e solves the equation of the rule (and so do the formulas documented for the rules): e = (1-f)ea + f eb (linear), (e-ea)/(ea+L(e-ea)) = f (eb-ea)/(ea+L(eb-ea)) (maxwell-garnett), (1-f)(ea-e)/(e+L(ea-e)) + f(eb-e)/(e+L(eb-e)) = 0 (bruggeman).", "quantifier": "all passive indices, volume fractions in [0,1], depolarisation factors", "why_tests_cant": "Inputs range over a continuum and over stacks of any number of layers; a test samples finitely many stacks.", "anchors": ["refellips/structureSE.py:overall_ri"]}
{"id": "C123", "title": "Each point of a call stands alone", "statement": "coh_tmm called with arrays of angles and wavelengths gives in column j what it gives for the j-th angle and wavelength alone, whatever the other points are; r and t in each column are the only solution of Maxwell's boundary value problem there; angles and wavelengths whose numbers differ (neither being one) raise ValueError. Delta_Psi_TMM does the same angle by angle.", "quantifier": "all n_list, d_list, angles and wavelengths, any number of layers and points", "why_tests_cant": "The program works on whole arrays of shape (layers, points) with broadcasting, slices and one test for opaque layers over all points; a test looks at a few shapes.", "anchors": ["refellips/reflect_modelSE.py:coh_tmm", "refellips/reflect_modelSE.py:Delta_Psi_TMM"]}
{"id": "C124", "title": "Fit parameters act in their documented roles", "statement": "The current values of the parameters act where the documentation puts them: A, B, C of Cauchy; Am, En, P, Einf of Sellmeier; the i-th Am, Br (C), En of Lorentz, Gauss and TaucLorentz together with Einf and Eg give the documented dielectric function; thick, ri, vfsolv of a slab and ri_A, ri_B, vf_B of a mixed slab give the film; psi and delta of a model are those of Maxwell's equations for these films.", "quantifier": "all parameter values, oscillator lists, component objects and structures, wavelengths and angles", "why_tests_cant": "A parameter used in the place of another is invisible when the two happen to be equal, small or unused at the tested wavelengths.", "anchors": ["refellips/dispersion.py:Cauchy.complex", "refellips/dispersion.py:Sellmeier.complex", "refellips/dispersion.py:Lorentz.epsilon", "refellips/dispersion.py:Gauss.epsilon", "refellips/dispersion.py:TaucLorentz.epsilon", "refellips/structureSE.py:SlabSE.slabs", "refellips/structureSE.py:MixedSlabSE.slabs", "refellips/reflect_modelSE.py:ReflectModelSE.model"]}
{"id": "C125", "title": "The weighting switch", "statement": "objective.weighted tells whether uncertainties of the data are used; it is switched by use_weights and by assigning objective.weighted. Switched on it adds to -2 logl the logarithms of 2 pi times the variances and changes neither residuals nor chi-squared; without lnsigma this is a constant. For data without uncertainties the switch does not change residuals, chi-squared, likelihood, posterior or covar.", "quantifier": "all objectives, data, parameter vectors and differentiation schemes", "why_tests_cant": "the default data never is weighted, so a test of the switch compares two equal numbers", "anchors": ["refellips/objectiveSE.py:ObjectiveSE.weighted", "refellips/objectiveSE.py:ObjectiveSE.logl", "refellips/dataSE.py:DataSE.__init__"]}
{"id": "C126", "title": "A transparent sample seen from both sides", "statement": "A stack of transparent layers between transparent media and the same stack turned round, at angles related by Snell's law, reflect the same fraction of each polarisation, so psi is the same from both sides.", "quantifier": "all stacks of transparent layers, wavelengths and angles below total reflection; layers not at their critical angle", "why_tests_cant": "Inputs range over a continuum and over stacks of any number of layers; a test samples finitely many stacks.", "anchors": ["refellips/reflect_modelSE.py:coh_tmm", "refellips/reflect_modelSE.py:Delta_Psi_TMM"]}
{"id": "C127", "title": "Loading a file replaces the dataset", "statement": "After data.load(file) on an existing dataset, the dataset consists of the points of the file; the same for refresh().", "quantifier": "all datasets, masks and files", "why_tests_cant": "Inputs range over a continuum and over stacks of any number of layers; a test samples finitely many stacks.", "anchors": ["refellips/dataSE.py:DataSE.load", "refellips/dataSE.py:DataSE.refresh"]}
{"id": "C128", "title": "Undefined indices stay visible through mixing", "statement": "If the refractive index of a material is not a number, the index of every mixture with it (mixed slab, solvated layer) is not a number either.", "quantifier": "all mixing rules, fractions and structures", "why_tests_cant": "All places at which a non-finite value can appear.", "anchors": ["refellips/structureSE.py:overall_ri", "refellips/structureSE.py:StructureSE.slabs"]}
{"id": "C129", "title": "The real part of oscillator models has the right sign around the resonances", "statement": "With non-negative amplitudes: the real part of a Lorentz dielectric function is at least Einf below all its resonances and at most Einf above all of them; the static dielectric constant of a Gauss model is at least Einf (strictly, if an oscillator absorbs) and its real part beyond the grid at most Einf; at the knots of its grid it is the cotangent-kernel Hilbert transform of the imaginary part.", "quantifier": "all oscillator lists", "why_tests_cant": "Inputs range over a continuum and over stacks of any number of layers; a test samples finitely many stacks.", "anchors": ["refellips/dispersion.py:Lorentz.epsilon", "refellips/dispersion.py:Gauss.epsilon"]}
{"id": "C130", "title": "The HORIBA reader reads exactly the DATA block", "statement": "The table of points is read from the lines of the DATA block (its heading and its rows) and from no other line of the file.", "quantifier": "all files made of blocks", "why_tests_cant": "All files; block lengths.", "anchors": ["refellips/dataSE.py:open_HORIBAfile"]}
{"id": "C131", "title": "What one measured pair says about a film thickness", "statement": "At oblique incidence, one measured pair (psi, delta) leaves at most two thicknesses of a transparent film that differs from both of its neighbours, up to whole interference periods; if delta is folded onto [0, 180], at most four, and on a transparent substrate the thicknesses d and P - d cannot be told apart. A film with the index of the incident medium leaves no trace of its thickness.", "quantifier": "all transparent films below their critical angle, passive substrates, angles and wavelengths", "why_tests_cant": "Inputs range over a continuum and over stacks of any number of layers; a test samples finitely many stacks.", "anchors": ["refellips/reflect_modelSE.py:Delta_Psi_TMM", "refellips/reflect_modelSE.py:coh_tmm"]}
{"id": "C132", "title": "reverse_structure is reversal of the components", "statement": "A structure with reverse_structure=True and the structure built with its components in the opposite order give the same thicknesses, indices and solvent fractions, and the same psi and delta, whether the solvent is named or is the backing medium.", "quantifier": "all structures of slabs and mixed slabs with default interfaces, mixing rules, data", "why_tests_cant": "All lists of components, solvent fractions and wavelengths.", "anchors": ["refellips/structureSE.py:StructureSE.slabs", "refellips/structureSE.py:StructureSE.reverse_structure", "refellips/reflect_modelSE.py:ReflectModelSE.model"]}
{"id": "C133", "title": "A material read from a file is the table in the file", "statement": "RI(path) has at the wavelengths of the CSV file (in micron) the index and, if given, the extinction coefficient of the file, straight lines in between and the ends outside; RI((n, k)) is constant; None and objects of other lengths are refused.", "quantifier": "all files, number formats and wavelengths", "why_tests_cant": "Inputs range over a continuum and over stacks of any number of layers; a test samples finitely many stacks.", "anchors": ["refellips/dispersion.py:RI.__init__", "refellips/dispersion.py:RI.complex"]}
{"id": "C134", "title": "covar at a fit that reproduces the data", "statement": "covar() of an objective whose model reproduces the data returns the covariance that follows from the sensitivities of psi and delta to the varying parameters (the inverse of A^T A + B^T B, A and B their Jacobians), just as it does near such a fit.", "quantifier": "all objectives, datasets, sets of varying parameters and difference steps", "why_tests_cant": "A test with noisy or rounded data never sits exactly on the kink of the distance, and one objective says nothing about the others.", "anchors": ["refellips/objectiveSE.py:ObjectiveSE.residuals", "refellips/objectiveSE.py:ObjectiveSE.covar", "refellips/objectiveSE.py:circular_distance"]}
{"id": "C135", "title": "A model fits its own data", "statement": "Let psi and delta be what a model returns at some wavelengths and angles. An objective made of the same model and a dataset holding these values, from arrays or saved to a file and loaded again, has residuals 0 and chi-squared 0.", "quantifier": "all structures, models, wavelengths and angles", "why_tests_cant": "Whether the conventions for delta of model, dataset and objective agree depends on flags in three objects and on the quadrant of every delta.", "anchors": ["refellips/reflect_modelSE.py:ReflectModelSE.model", "refellips/objectiveSE.py:ObjectiveSE.__init__", "refellips/objectiveSE.py:ObjectiveSE.residuals", "refellips/dataSE.py:DataSE.save", "refellips/dataSE.py:DataSE.load"]}
{"id": "C136", "title": "An absorbing film hides what lies beneath it", "statement": "Two samples that agree down to an absorbing film, and differ in any way below it, have reflection amplitudes that differ by at most a constant times exp(-2b), where b is the damping of the film (2 pi d/lambda times the imaginary part of its normal index, at most 35) and the constant depends only on the ratio of imaginary to real part of the normal index; psi and delta then differ accordingly.", "quantifier": "all passive stacks above and below the film, any number of layers, all wavelengths and angles", "why_tests_cant": "Inputs range over a continuum and over stacks of any number of layers; a test samples finitely many stacks.", "anchors": ["refellips/reflect_modelSE.py:coh_tmm", "refellips/reflect_modelSE.py:Delta_Psi_TMM"]}
{"id": "C137", "title": "Gauss oscillators are Kramers-Kronig consistent", "statement": "The real part of the dielectric function of a Gauss model is Einf plus the Kramers-Kronig transform of its imaginary part (documented: \"The model is Kramers-Kronig consistent\").", "quantifier": "all oscillator lists and energies", "why_tests_cant": "The real part is a discrete transform of samples of the imaginary part; how far it is from the integral depends on all parameters, and a test with stored numbers compares the program with itself.", "anchors": ["refellips/dispersion.py:Gauss.epsilon"]}
{"id": "C138", "title": "psi and delta are smooth functions of the parameters", "statement": "If thicknesses, indices, angle and wavelength are N times continuously differentiable functions of some parameters, so are the reflection and transmission amplitudes and, where delta is not at an end of its range, psi and delta: derivatives with respect to the fit parameters exist, and difference quotients approach them. Excepted are places at which a polarisation is not reflected at all, a medium is exactly at its critical angle or a layer exactly at the limit of opacity, and absorption that sets in in a medium that reflects totally (the backing, or an opaque layer).", "quantifier": "all stacks, any number of layers, all orders of differentiability and all ways of varying the parameters", "why_tests_cant": "A difference quotient at one step size neither shows that a limit exists nor that the next point has no kink.", "anchors": ["refellips/reflect_modelSE.py:coh_tmm", "refellips/reflect_modelSE.py:Delta_Psi_TMM"]}
{"id": "C139", "title": "What an ellipsometer sees of a very thin film", "statement": "To first order in its thickness d a film on a substrate multiplies tan(psi) exp(-i delta) by 1 + L d with L as in Drude's formula: L = -(4 pi i/lambda) n0 cos(a) sin(a)^2 nb^2 (n^2-n0^2)(n^2-nb^2) / (n^2 (nb^2-n0^2)(nb^2 cos(a)^2 - n0^2 sin(a)^2)). So at oblique incidence every film that differs from both neighbours is visible to first order; a transparent film on a transparent substrate is visible in delta only; and films of different indices are confounded: a thickness of the one looks like a certain multiple of it of the other.", "quantifier": "all passive films and substrates, angles and wavelengths; substrate not at its Brewster angle, film not at its critical angle", "why_tests_cant": "Derivatives at thickness zero; all indices, angles and wavelengths.", "anchors": ["refellips/reflect_modelSE.py:coh_tmm", "refellips/reflect_modelSE.py:Delta_Psi_TMM"]}
{"id": "C140", "title": "Causality of the models without absorption", "statement": "A Cauchy model whose index is not constant violates causality: no function that is holomorphic above the real axis, real in the time domain and convergent at infinity has its squared index as boundary values. A Sellmeier model is causal: its squared index is, wherever it is defined, the boundary value of such a function tending to Einf (Lorentz oscillators without damping).", "quantifier": "all parameters of Cauchy with B or C nonzero and of Sellmeier with En nonzero, all wavelengths", "why_tests_cant": "A statement about all causal functions.", "anchors": ["refellips/dispersion.py:Cauchy.complex", "refellips/dispersion.py:Sellmeier.complex"]}
{"id": "C141", "title": "Folding the data folds the model", "statement": "Reading data (deltas from 0 to 360) with reflect_delta=True instead of as they are does not change the residuals of psi and does not increase the residuals of delta or chisqr of an objective made from them: the objective folds the model in the same way, whatever the model did before. In particular a perfect fit remains one.", "quantifier": "all structures, models, data with deltas from 0 to 360, and delta offsets", "why_tests_cant": "The claim couples the loader, the flag that the constructor of the objective writes into the model, and the folding inside the model loop, for all model and data deltas on either side of 180 degrees; a test sees single pairs, and the failure needs an offset and a delta above 180 together.", "anchors": ["refellips/objectiveSE.py:ObjectiveSE.__init__", "refellips/dataSE.py:DataSE.__init__", "refellips/reflect_modelSE.py:Delta_Psi_TMM"]}
{"id": "C142", "title": "Thick films do not overflow", "statement": "The reset of delta for very opaque layers keeps the numbers that coh_tmm calculates from the phases on (beta, beta_inv, M_list, Mtilde after every layer, the terms of the sums) within the range of doubles, however thick the films are, so that the amplitudes of a physical stack are not lost to inf or nan. In any case every such number is at most G^(N+1) times the exponential of the total attenuation in nepers, where N is the number of films, G bounds the contrast of the interfaces, and an absorbing film counts at most 35.", "quantifier": "all physical stacks, angles, wavelengths and both polarisations; every pass of the loop", "why_tests_cant": "The size of the partial products grows with every layer and the extreme depends on thicknesses, angles and the number of layers together; a test of a thick metal film sees one film below its limit and never the product of many, nor a film beyond its critical angle whose delta has the other sign.", "anchors": ["refellips/reflect_modelSE.py:coh_tmm"]}
{"id": "C143", "title": "The composition of a mixture can be read off its index", "statement": "The volume fraction of a mixture of two different passive materials follows from its refractive index: solving the equation of the rule for the fraction gives back vf_B, so overall_ri never returns the same index for two different volume fractions between 0 and 1.", "quantifier": "all pairs of different passive materials, volume fractions, mixing rules and admissible depolarisation factors", "why_tests_cant": "Uniqueness is a statement about all pairs of fractions; the Bruggeman rule picks one of two roots, and a test that finds a fraction back does not show that no other fraction does as well.", "anchors": ["refellips/structureSE.py:overall_ri", "refellips/structureSE.py:MixedSlabSE.slabs"]}
{"id": "C144", "title": "A mixture changes gradually with its composition", "statement": "The index returned by overall_ri is a continuous function of the indices of the two materials, of the volume fraction and of the depolarisation factor together: a small change of any of them never makes the index jump, whichever sign a zero has in the calculation.", "quantifier": "all passive materials, volume fractions between 0 and 1, mixing rules and admissible depolarisation factors", "why_tests_cant": "Continuity is a statement about all neighbours of all inputs; the choice of a square root jumps only on a curve in the space of inputs, which a sample of inputs does not meet.", "anchors": ["refellips/structureSE.py:overall_ri"]}
{"id": "C145", "title": "Total reflection", "statement": "Transparent films on a transparent backing medium, at or beyond the critical angle of the backing medium, reflect all light of both polarisations: psi is 45 degrees and delta has a value. For a bare interface delta is Fresnel's phase difference, tan(delta/2) = cos(a) sqrt(sin(a)^2 - n^2) / sin(a)^2 with n the relative index.", "quantifier": "all stacks of transparent films (not at their own critical angle), wavelengths, angles beyond the critical angle, both delta conventions", "why_tests_cant": "Equality with 45 degrees for all film thicknesses is a conservation law, not a value; the sign of the phase depends on the branch of the square root beyond the critical angle, which tests in reflection from air never reach.", "anchors": ["refellips/reflect_modelSE.py:Delta_Psi_TMM", "refellips/reflect_modelSE.py:coh_tmm"]}
{"id": "C146", "title": "The misfit cannot run away", "statement": "For data as instruments report them, psi between 0 and 90 and delta between 0 and 360, no choice of structure or materials makes the misfit arbitrarily bad: residuals of psi are at most 90 and residuals of delta at most 180 in absolute value, chisqr() is at most (90\u00b2 + 180\u00b2) times the number of unmasked points, and the log-likelihood of an objective without weights is between -(90\u00b2 + 180\u00b2)/2 times that number and 0.", "quantifier": "all structures, states, datasets with psi in [0, 90] and delta in [0, 360], masks and offsets of at most half a turn", "why_tests_cant": "A bound over all structures and materials a fit may try; tests evaluate the misfit of a few sensible models and never a model with an offset of several turns.", "anchors": ["refellips/objectiveSE.py:21-40", "refellips/objectiveSE.py:183-225", "refellips/objectiveSE.py:353-419", "refellips/reflect_modelSE.py:283-296"]}
{"id": "C147", "title": "repr() prints a complete call of the constructor", "statement": "repr() of a slab, structure, model, dataset or objective is the text of a complete call of its class: it begins with the name of the class, every bracket and every string is closed whatever characters names contain, and its keywords are parameters of the constructor.", "quantifier": "all objects of these classes, all names (sequences of characters) and all printed forms of their parts in which brackets and strings are closed", "why_tests_cant": "Names are arbitrary strings with quotes, backslashes and brackets, and printed forms are nested in each other; tests at most call repr() and discard the result.", "anchors": ["refellips/structureSE.py:254-259", "refellips/structureSE.py:353-358", "refellips/reflect_modelSE.py:349-353", "refellips/dataSE.py:116-125", "refellips/objectiveSE.py:138-146"]}
{"id": "C148", "title": "Rounding does not spoil psi and delta", "statement": "Evaluated in floating point arithmetic, psi and delta differ from their exact values by at most a constant times the unit roundoff (delta on the circle), provided the roundoff is small enough; the constant depends on the structure, the wavelength and the angle but not on how the individual operations round. This includes rounding of the refractive indices and thicknesses themselves.", "quantifier": "all structures, wavelengths, angles and both delta conventions; all arithmetics whose operations have a relative error of at most u", "why_tests_cant": "Tests compare with a tolerance on one machine; they do not show that the error is of the order of the roundoff for every way of rounding, nor at which angles it is not.", "anchors": ["refellips/reflect_modelSE.py:81-294"]}
{"id": "C149", "title": "Rounding does not spoil the misfit", "statement": "Evaluated in floating point arithmetic, chisqr() differs from its exact value by at most a constant times the unit roundoff, for every way of rounding at every point and every order in which the squared residuals are added.", "quantifier": "all objectives whose chi-squared is finite; all arithmetics and all orders of summation", "why_tests_cant": "The order of summation in np.dot depends on the machine and the number of points; a test on one machine with one dataset does not cover another order.", "anchors": ["refellips/objectiveSE.py:21-40", "refellips/objectiveSE.py:183-225", "refellips/reflect_modelSE.py:81-294"]}
{"id": "C150", "title": "A structure can be edited like a list", "statement": "Structures are lists of components: item assignment, del, pop, insert, extend, +=, *=, reverse and clear, in any order, change the components as they change a list, leave all settings alone, and slabs() shows the components in the new order. Slices, sums, multiples and copies have the settings of the structure they come from. Nothing but components can get into a structure in this way.", "quantifier": "all structures, all sequences of edits, all indices (negative ones count from the end; positions that do not exist raise IndexError)", "why_tests_cant": "Histories of any length with any indices; the methods are inherited and not tested at all in the package.", "anchors": ["refellips/structureSE.py:401-527"]}
{"id": "C151", "title": "Models may be evaluated in several threads", "statement": "A thread that calls `ReflectModelSE.model` returns the values it would return alone, whatever other threads evaluate meanwhile and however their steps are interleaved, and it returns after a number of its own steps that does not depend on them, provided that no other thread uses the same structure, or that all threads that use it evaluate it at one and the same wavelength, or that the indices of its materials do not depend on the wavelength. (In general this is false for a shared structure: `model` stores the wavelength in the structure and `slabs` reads it from there, so another thread can replace it in between, and values for the wrong index are returned without any error.)", "quantifier": "all numbers of threads, all schedules of their steps, all models, structures and points", "why_tests_cant": "A race shows itself only in particular interleavings, which a test can neither choose nor enumerate.", "anchors": ["refellips/reflect_modelSE.py:355-396", "refellips/structureSE.py:269-292", "refellips/structureSE.py:372-398", "refellips/structureSE.py:585-651"]}
{"id": "C152", "title": "The order of the rows of a dispersion table", "statement": "A tabulated material (`RI` from arrays, from a file or from `load_material`) has at every wavelength the index that is interpolated between the neighbouring rows, whatever the state of numpy's search, if the rows are in the order of increasing wavelength; repeated wavelengths are allowed. All bundled materials are in this order. (For rows in the order of decreasing wavelength it is false: they are neither sorted nor refused, and the material has the index of its last row at all wavelengths above the smallest one.)", "quantifier": "all tables, all wavelengths, all guesses of the search", "why_tests_cant": "Whether a search finds the right interval depends on the table, the wavelength and the previous wavelength; a test sees few of these.", "anchors": ["refellips/dispersion.py:73-97", "refellips/dispersion.py:117-130"]}
{"id": "C153", "title": "Rounding does not spoil refractive indices", "statement": "Evaluated in floating point arithmetic, the refractive index of a layer (a constant, table, Cauchy, Sellmeier, Lorentz, Gauss or Tauc-Lorentz material, a mixture of such materials under any of the three mixing rules, or a mixture penetrated by the solvent) is finite and differs from the exact one by at most a constant times the unit roundoff, and it stays real where no material absorbs. The same holds of the psi and delta computed from these indices. (It is false for tables with two rows at the wavelength, where either row may be returned, and for metals under the Bruggeman rule, where indices may differ by more than 2 whatever the roundoff.)", "quantifier": "all parameters and wavelengths at which the materials have an index and do not amplify, all nested mixtures, volume fractions in [0, 1] and depolarisation factors; all arithmetics whose operations have a relative error of at most u", "why_tests_cant": "Errors accumulate along long formulae with differences of nearly equal numbers and a choice of branches; a test compares with a tolerance on one machine at a few wavelengths.", "anchors": ["refellips/dispersion.py:117-130", "refellips/dispersion.py:211-220", "refellips/dispersion.py:290-302", "refellips/dispersion.py:387-401", "refellips/dispersion.py:453-481", "refellips/dispersion.py:549-641", "refellips/structureSE.py:105-112", "refellips/structureSE.py:858-922", "refellips/reflect_modelSE.py:228-294"]}
{"id": "C154", "title": "The depolarisation factor sets the index of a mixture", "statement": "Under the maxwell-garnett and bruggeman rules the depolarisation factor of a mixture of two different passive materials with a volume fraction strictly between 0 and 1 can be computed back from the refractive index, so two different factors never give the same index. For transparent materials the index falls strictly as the factor grows, and the dielectric constant is at most the mean of those of the two materials (layers along the field) and at least their harmonic mean (layers across the field).", "quantifier": "all pairs of different passive (for the order: transparent) materials, volume fractions in (0, 1), depolarisation factors in [0, 1] (below 1 for bruggeman)", "why_tests_cant": "Monotonicity and uniqueness are statements about all pairs of factors; the Bruggeman rule picks one of two roots of an equation whose coefficients depend on the factor.", "anchors": ["refellips/structureSE.py:858-922"]}
{"id": "C155", "title": "Slicing a graded layer", "statement": "A layer whose index varies continuously with depth can be modelled by slabs: as the slabs become thin, the amplitudes, psi and delta that are calculated for them tend to the solution of Maxwell's equations for the graded layer, wherever in each slab its index is taken; if the index has a bounded slope the error is at most proportional to the thickness of the slabs. A slab of exactly critical index has no result.", "quantifier": "all continuous passive index profiles, within any physical stack of films, all angles below 90 degrees and wavelengths", "why_tests_cant": "a test compares some numbers of slabs with each other; the limit is the solution of a differential equation with variable coefficients, for every profile.", "anchors": ["refellips/reflect_modelSE.py:81-294"]}
{"id": "C156", "title": "Fine layers act like a uniaxial film and, for s polarisation, like the linear mixture", "statement": "If a film of fixed thickness is made of more and more, thinner and thinner periods of the same sequence of slabs, the amplitudes, psi and delta that the reflectivity code returns tend to those of a homogeneous uniaxial film with its optic axis along the normal: mean of n^2 along the layers, inverse of the mean of 1/n^2 across them. For two materials these are the index that overall_ri returns by the linear rule, and the one by the Maxwell-Garnett rule with depolarisation factor 1. So for s polarisation, and at normal incidence, the stack tends to a single MixedSlabSE film with the linear rule; for p polarisation at oblique incidence, and hence for psi, it does not.", "quantifier": "all cells of passive layers with any shares, all thicknesses, angles, wavelengths, films in front and behind, backing media; the number of periods tends to infinity", "why_tests_cant": "a test compares one finite stack with one effective index at a tolerance; the statement is a limit over the number of slabs of a nonlinear function of products of matrices, and which of the mixing rules is right depends on the polarisation", "anchors": ["refellips/reflect_modelSE.py:81-294", "refellips/structureSE.py:858-922", "refellips/structureSE.py:295-400"]}
{"id": "C157", "title": "Many periods hide what is behind them; in a stop band they reflect everything", "statement": "For a stack with more and more periods of the same slabs: if a Bloch wave of the period is attenuated, the reflected amplitude, psi and delta that the reflectivity code returns tend, at a geometric rate, to values that do not depend on the films and the medium behind the periods, and the transmitted amplitude tends to 0. This is so whenever one slab of the period absorbs. If no slab absorbs, the reflectance tends to 1 and, if both polarisations are attenuated, psi tends to 45 degrees; for two slabs per period this happens exactly if the textbook cosine of the Bloch phase is outside [-1, 1], in particular for quarter-wave slabs. If the Bloch waves have factors of modulus 1 other than 1 and -1, the reflectance stays below a bound less than 1 for every number of periods.", "quantifier": "all periods of passive slabs that are not critical and attenuate by at most 35 nepers each, all films in front and behind, all backing media that absorb or carry a propagating wave, all angles and wavelengths, all numbers of periods", "why_tests_cant": "a test evaluates a stack of a fixed number of periods; the statement is about a limit over the number of periods, with a rate, for every cell, and the criterion for the stop band is an equivalence", "anchors": ["refellips/reflect_modelSE.py:81-227", "refellips/reflect_modelSE.py:228-294"]}
{"id": "C158", "title": "How well a table stands for the curve it was sampled from", "statement": "For an RI material whose rows are points of a curve, complex(w) between two neighbouring rows differs from the curve, in n and in k, by at most half the bound on the second derivative times the product of the distances to the two rows, hence by at most M h**2 / 8 for rows at most h apart, and for a parabola it does differ by that much half way. A table of a Cauchy material with B, C >= 0 never gives an index below that of the material and exceeds it by at most (6 B/a**4 + 20 C/a**6) (b - a)**2 / 8. For tables of a continuous curve whose rows draw together, the index, psi and delta of a sample tend to those of the curve.", "quantifier": "all increasing tables, all curves whose slope is Lipschitz continuous (or which are continuous, for the limits), all wavelengths inside the table; for psi and delta all samples of films that absorb or are below their critical angle", "why_tests_cant": "a test compares a table with the curve at some wavelengths; the bound is for every curve and every spacing, with the exact constant, and the limit is over a sequence of tables", "anchors": ["refellips/dispersion.py:103-130", "refellips/dispersion.py:197-220", "refellips/reflect_modelSE.py:81-294"]}
{"id": "C159", "title": "Sum rules of the Lorentz model", "statement": "For Lorentz materials with positive broadenings: the integral of E Im epsilon(E) over all energies exists and is pi/2 times the sum of the amplitudes Am, whatever Br and En (also for En = 0). If no En is 0, epsilon(0) is Einf + sum of Am / En**2, and its excess over Einf is 2/pi times the integral of Im epsilon(E) / E; the deviation of Re epsilon from Einf integrates to zero. E**2 (epsilon(E) - Einf) tends to minus the sum of the amplitudes as E grows. So Am is the strength of an oscillator and Br only spreads it.", "quantifier": "all lists of oscillators with positive broadenings, all Einf", "why_tests_cant": "the statements are improper integrals over all energies and a limit; a test evaluates the function at finitely many energies", "anchors": ["refellips/dispersion.py:322-401"]}
{"id": "C160", "title": "epsilon is the dielectric function at a photon energy", "statement": "epsilon(nm_eV_conversion(w)) of a dispersion model is the square of its refractive index complex(w); a user defined subclass of ScattererSE that only defines epsilon(energy) gets its index that way, with n >= 0, k > 0 where epsilon absorbs, and its default wavelength when none is given; one that overrides complex is asked for the index at the wavelength of the structure; a subclass that defines neither method raises.", "quantifier": "all models with an epsilon method, parameters and wavelengths", "why_tests_cant": "Tests evaluate epsilon of each class in the way that class happens to expect; that all classes share one convention, and what the base class does with arbitrary user code, are statements about all classes.", "anchors": ["refellips/structureSE.py:67-116", "refellips/dispersion.py:Sellmeier.epsilon", "refellips/dispersion.py:Lorentz.epsilon", "demos/refellipsDemo_UserDefinedOscillator.ipynb"]}
{"id": "C161", "title": "A material acts through its index only", "statement": "Exchanging the materials of a structure (slabs, mixed slabs, solvent) for materials of other classes that have the same complex refractive index at the wavelengths asked for changes neither psi and delta nor the errors raised by a model; in particular a user defined oscillator can stand for the package's own, and RI([n, 0]), Cauchy(n), Sellmeier(0, En, 0, n^2) and Lorentz(0, Br, En, n^2) are interchangeable.", "quantifier": "all structures with default interfaces, settings, parameter values, wavelengths and angles", "why_tests_cant": "It is representation independence over all classes and structures; a test compares two classes in one structure.", "anchors": ["refellips/structureSE.py:266-292", "refellips/structureSE.py:370-398", "refellips/structureSE.py:585-651", "refellips/reflect_modelSE.py:355-396"]}
{"id": "C162", "title": "The limit on the attenuation of opaque layers does not show", "statement": "coh_tmm replaces an attenuation of more than 35 nepers in a layer by 35, which Maxwell's equations do not. For a sample between half spaces, with films that do not amplify, seen at an angle of incidence from 0 to less than 90 degrees, the boundary value problem without the limit has exactly one solution, and the reflection amplitude that coh_tmm returns is within 1e-17 of it for both polarisations, provided that in every absorbing film the imaginary part of the normal wave number is at most a million times the real part. Psi and delta then agree with those of the unlimited sample: the sine of the difference of the psis times the root of |Rs|^2+|Rp|^2 and the sine of half the difference of the deltas times |Rs||Rp| are at most 2e-17.", "quantifier": "for all stacks with any number of films of any thickness (phase up to sinh 35), all wavelengths and angles in [0, 90) degrees, both polarisations", "why_tests_cant": "The claim compares with a computation that overflows in floating point for exactly the samples concerned, so no test can make the comparison; and it ranges over every place the opaque film can have in the stack.", "anchors": ["refellips/reflect_modelSE.py:152-162", "refellips/reflect_modelSE.py:81-294"]}
{"id": "C163", "title": "What several measured pairs say about a film thickness", "statement": "M pairs (psi, delta) of one transparent film, measured at oblique incidence at any wavelengths and angles, leave at most 2^M thicknesses (4^M if delta is folded onto [0, 180]) up to lengths that are whole numbers of interference periods in every measurement. If two of the periods have an irrational ratio, at most that many thicknesses are left altogether; if all periods fit into a common length, thicknesses that differ by it give the same pairs in every measurement and cannot be told apart. At one angle and without dispersion the periods are as the wavelengths.", "quantifier": "all transparent films below their critical angle that differ from both neighbours, passive substrates, any number of measurements with any dispersion of the three media", "why_tests_cant": "Whether a fit can have further solutions is a statement about all thicknesses at once.", "anchors": ["refellips/reflect_modelSE.py:Delta_Psi_TMM", "refellips/reflect_modelSE.py:coh_tmm"]}
{"id": "C164", "title": "Films that do not reflect", "statement": "A transparent film between transparent media, below the critical angles, reflects nothing of one polarisation exactly if (1) the tilted admittances of all three media are equal, or (2) those of the two half spaces are equal and the film is a whole number of interference periods thick, or (3) that of the film is the geometric mean of those of its neighbours and the thickness is an odd number of half periods. At normal incidence psi and delta are nan exactly then (for (3): an odd number of quarter waves of index sqrt(n0 nb), the classical antireflection coating), and 45 and 180 degrees (plus the offset) for every other film. At oblique incidence psi is nan only if the two half spaces have the same index and the film has that index too or is whole periods thick: no antireflection coating works for both polarisations at once.", "quantifier": "all transparent films of any thickness between transparent half spaces, all wavelengths, all angles in (-90, 90) degrees below the critical angles", "why_tests_cant": "The nan appears on a set of thicknesses without interior, which sampled or floating point thicknesses miss; that there is no other such thickness or index is a statement about all of them.", "anchors": ["refellips/reflect_modelSE.py:Delta_Psi_TMM", "refellips/reflect_modelSE.py:coh_tmm"]}
{"id": "C165", "title": "Printing an objective shows its misfit and changes nothing", "statement": "str(objective) shows on lines of their own the sum of squared differences between the current model and the points that are fitted, whether the fit is weighted, the transform, and the current parameters; it raises exactly if the model cannot be computed at one of the points that are fitted. Printing, successful or not, changes no parameter, dataset or model and of structures only the wavelength last used, so that afterwards every objective gives the same residuals, chisqr, logp, logl, logpost and text as before. The number of points it shows is the number of points fitted.", "quantifier": "all objectives, datasets, masks, states and parameter vectors, whatever the printed form of numbers", "why_tests_cant": "That a call has no effect on any later call is a statement about all later calls in all states; the printed objective and the one evaluated may share models, structures and parameters in any way.", "anchors": ["refellips/objectiveSE.py:120-136", "refellips/objectiveSE.py:161-167", "refellips/objectiveSE.py:207-225", "refellips/dataSE.py:109-114"]}
{"id": "C166", "title": "Perfect fits of the thickness of one film", "statement": "An objective that fits only the thickness of one transparent film to data at oblique incidence: if objective.chisqr([x]) is 0 for a thickness, that thickness is one of at most 2^M (M points; 4^M if the model folds delta onto [0, 180]) up to lengths that are whole numbers of interference periods at every point. If the periods at two points have an irrational ratio, at most that many thicknesses fit perfectly at all. If all periods fit into a common length and the measured delta lie in the range of the model, residuals and chi-squared are the same for thicknesses that differ by that length, for good and for bad fits.", "quantifier": "all objectives, states, data and structures whose only varying parameter is the thickness of a transparent film below its critical angle that differs from both neighbours, in exact arithmetic with wavelengths given as floats", "why_tests_cant": "Whether an optimiser can end in a second perfect fit is a statement about all thicknesses at once.", "anchors": ["refellips/objectiveSE.py:chisqr", "refellips/objectiveSE.py:residuals", "refellips/reflect_modelSE.py:Delta_Psi_TMM"]}
{"id": "C167", "title": "Best fits exist, and good fits are close to them", "statement": "If the parameters are confined to a closed and bounded set over which psi and delta are finite, objective.chisqr(pvals) has a smallest value in it. Every neighbourhood of the best fits contains all fits that are good enough, and if the best fit is unique, parameters whose chi-squared tends to the smallest value tend to the best fit.", "quantifier": "all objectives, structures of any number of slabs, data, and compact families of parameters over which the indices and thicknesses of the layers are continuous", "why_tests_cant": "That a minimum exists, and what follows for every sequence of fits, is a statement about all parameter values at once.", "anchors": ["refellips/objectiveSE.py:chisqr", "refellips/objectiveSE.py:setp", "refellips/reflect_modelSE.py:Delta_Psi_TMM"]}
{"id": "C168", "title": "A little noise in the data moves the fit a little", "statement": "If the measured psi and delta change, the square root of objective.chisqr() changes by at most the Euclidean distance of the two sets of data (delta modulo whole turns). If data tend to data with a unique best fit in a closed and bounded set of parameters, the best fits tend to it. The best fit of the thickness of a film to data with little noise is close to a thickness that fits the noise-free data perfectly.", "quantifier": "all models, data and sequences of data; for fits, all compact families of parameters over which the indices and thicknesses of the layers are continuous", "why_tests_cant": "Statements about every possible noise and all parameter values; unit tests fit a handful of data sets.", "anchors": ["refellips/objectiveSE.py:chisqr", "refellips/objectiveSE.py:residuals", "refellips/objectiveSE.py:circular_distance"]}
{"id": "C169", "title": "Error bars do not grow when points are added or parameters are fixed", "statement": "Take two objectives for the same model in the same state, where the second has all points of the first and varies no further parameters. Then objective.covar() of the second assigns to every parameter it varies, and to every linear combination of them, a variance no larger than that of the first (for data without weights: relative to the reduced chi-squared by which covar multiplies).", "quantifier": "all models, data and sets of varying parameters for which the residuals are differentiable and covar discards no singular value", "why_tests_cant": "A comparison of the covariances of any two nested fits; unit tests compute one covariance of one fit.", "anchors": ["refellips/objectiveSE.py:covar", "refellips/objectiveSE.py:residuals"]}
{"id": "C170", "title": "With flat priors the most probable parameters are those that fit best", "statement": "If every varying parameter is equally probable between two bounds and impossible outside, objective.logpost(x) is -inf for x outside the bounds and a constant minus objective.chisqr(x) / 2 inside. Hence a vector maximises the log-posterior over all vectors exactly if it minimises chi-squared within the bounds. If the model depends continuously on the parameters, such a vector exists.", "quantifier": "all models, data and bounds; existence: families of models as in C167", "why_tests_cant": "Compares the posterior at all pairs of parameter vectors; unit tests evaluate it at a few.", "anchors": ["refellips/objectiveSE.py:logpost", "refellips/objectiveSE.py:logp", "refellips/objectiveSE.py:logl", "refellips/objectiveSE.py:chisqr"]}
{"id": "C171", "title": "The parameters of a dispersion law can be read off the index", "statement": "Two Cauchy models with the same index at three wavelengths have the same A, B, C; two Sellmeier models (non-zero amplitude, positive En) with the same index at four wavelengths have the same Am, En, P, Einf; two Lorentz or Tauc-Lorentz models (positive parameters, no two oscillators with the same broadening and energy, no zero amplitude) with the same complex index at enough wavelengths have the same oscillators up to their order, the same Einf and the same gap.", "quantifier": "all parameters, numbers of oscillators and sets of wavelengths larger than a bound computed from the number of oscillators", "why_tests_cant": "whether a fit of an index can be unique is a statement about all pairs of parameter sets; a test compares a few", "anchors": ["refellips/dispersion.py:Cauchy.complex", "refellips/dispersion.py:Sellmeier.complex", "refellips/dispersion.py:Lorentz.epsilon", "refellips/dispersion.py:TaucLorentz.epsilon", "refellips/structureSE.py:ScattererSE.complex"]}
{"id": "C172", "title": "A perfect fit of the dispersion of a substrate is the only one", "statement": "An objective that fits the parameters of the dispersion law of a bare substrate to data at oblique incidence: all parameter vectors x with objective.chisqr(x) = 0 give the substrate the same index at every measured wavelength; so with enough wavelengths (three for Cauchy, four for Sellmeier, more than twice the number of oscillators for Lorentz, more than eight times for Tauc-Lorentz where it absorbs) they are the same parameters, for oscillators up to their order.", "quantifier": "all objectives, states, data and structures of a bare passive substrate whose varying parameters are those of its dispersion law, in exact arithmetic with wavelengths given as floats", "why_tests_cant": "uniqueness of a fit quantifies over all pairs of parameter vectors and all data; a test runs one optimiser on one dataset", "anchors": ["refellips/objectiveSE.py:ObjectiveSE.chisqr", "refellips/reflect_modelSE.py:ReflectModelSE.model", "refellips/dispersion.py:Cauchy.complex", "refellips/dispersion.py:Sellmeier.complex", "refellips/dispersion.py:Lorentz.epsilon", "refellips/dispersion.py:TaucLorentz.epsilon"]}
{"id": "C173", "title": "The posterior is a distribution when flat priors are bounded, and is not when they are unbounded", "statement": "exp(objective.logpost(x)) is a density for a sampler (emcee, dynesty through CurveFitter) only if its integral over all the vectors of values of the varying parameters is finite and positive. With flat priors between finite bounds (Parameter(value, vary=True, bounds=(lo, hi)), lo < hi), no lnsigma, and a model that deforms continuously within them, it is. More generally the likelihood never exceeds 1, so the posterior density is never above the product of the prior densities: if each prior has a finite integral (a normal distribution, say) then so has the posterior, with or without lnsigma and whatever the model, provided the density is a measurable function; it is positive if the priors and chi-squared are finite on a set of positive volume. If the prior is flat over a set of infinite volume (a bound is infinite, or none was given) on which chi-squared is finite, the offset is at most half a turn, and lnsigma, if used with weighted data, is bounded above, the integral is infinite whatever the data and the model: because psi and delta are angles, no residual is large, so no measurement rules out even a film a kilometre thick; and a free lnsigma with no lower bound spoils the posterior even if all else is known. With weighted data a lower bound for lnsigma alone is enough.", "quantifier": "all objectives, data, models that deform continuously and bounds; all objectives, data, models and proper priors; for the negative part all objectives, with or without lnsigma, data with psi between 0 and 90 and delta between 0 and 360, and measurable sets of vectors of infinite volume", "why_tests_cant": "An integral over all the values of the parameters, and its divergence, cannot be observed from samples: a sampler started in the peak wanders off only after a time no test waits for.", "anchors": ["refellips/objectiveSE.py:logpost", "refellips/objectiveSE.py:logp", "refellips/objectiveSE.py:logl", "refellips/objectiveSE.py:chisqr"]}
{"id": "C174", "title": "Slabs with the index of their middle converge quadratically", "statement": "If the index of a graded layer has a slope that changes at a bounded rate with depth, and the layer is modelled by slabs (of any thicknesses) each with the index the layer has in the middle of the slab, then the calculated amplitudes are within a constant times the square of the largest thickness of the solution of Maxwell's equations for the graded layer, and so are psi and, as an angle, delta where neither amplitude vanishes: with N equal slabs the error falls as 1/N^2, so doubling N leaves at most a quarter of the bound.", "quantifier": "all index profiles whose derivative is Lipschitz continuous, passive, within any physical stack of films, all ways of cutting, all angles below 90 degrees and wavelengths", "why_tests_cant": "a test can compare a few numbers of slabs for one profile; the order of convergence is a statement about all numbers of slabs and every profile, against the solution of a differential equation.", "anchors": ["refellips/reflect_modelSE.py:coh_tmm", "refellips/reflect_modelSE.py:Delta_Psi_TMM"]}
{"id": "C175", "title": "How noise enters the fitted parameters", "statement": "Let x0 be values of the varying parameters for which the model reproduces the data (delta up to whole turns) and let A and B be the matrices of the derivatives of all psi and all delta with respect to the varying parameters at x0, delta followed continuously where it wraps around at 360 degrees. Then near x0 objective.chisqr(x) = (x - x0)^T (A^T A + B^T B) (x - x0) up to terms of higher than second order, and with flat priors and no lnsigma objective.logpost(x) is its value at x0 minus half of that: the posterior is, near its maximum, the normal distribution whose inverse covariance is A^T A + B^T B (the matrix that covar also finds, C134, except where delta is reproduced exactly). If no direction in parameter space leaves all psi and delta unchanged to first order, x0 is the only parameter vector near by that reproduces the data; and if a unit change of the parameters in any direction changes psi and delta by more than s, then every parameter vector near x0 that fits noisy data (of the same wavelengths and angles) at least as well as x0 does is within 2 / s times the noise of x0, the noise being the Euclidean distance between the two sets of data. For a bare substrate measured at oblique incidence the condition is one on its dispersion law alone: if no direction in parameter space leaves the index at all measured wavelengths unchanged to first order, noise enters the fitted parameters at most linearly (delta folded or not, but not at an end of its range).", "quantifier": "every objective, structure, dispersion law, list of data points, choice of varying parameters, offset, and every noise, as long as the model is differentiable at x0 and delta of the data lies between half a turn below and one and a half turns above the offset", "why_tests_cant": "A test adds one random noise to one simulated data set and checks that the fit comes out near the true values; whether the error of the fit is bounded by a constant times the noise for every noise, and what the constant is, needs the derivative of the model for all inputs and a compactness argument over directions.", "anchors": ["refellips/objectiveSE.py:chisqr", "refellips/objectiveSE.py:residuals", "refellips/objectiveSE.py:circular_distance", "refellips/objectiveSE.py:logpost", "refellips/objectiveSE.py:covar"]}
{"id": "C176", "title": "Measuring again and again concentrates the posterior at the best fit", "statement": "Without lnsigma and with priors that are continuous between finite bounds lo < hi and vanish outside: let the best fit x0 (the values of the varying parameters with the least objective.chisqr between the bounds) be unique and not excluded by the priors. If every point of the data is measured N times with the same result, then, as N grows, the mean of every continuous quantity over the posterior exp(objective.logpost(x)) approaches its value at x0, and the probability of every neighbourhood of x0 approaches 1; the priors no longer matter. The same holds with lnsigma, for all proper priors and for data that change from one repetition to the next, if the mean log-likelihood per repetition approaches, uniformly in the parameters, a function with a clear maximum that the priors do not exclude (below the maximum by a margin outside of every neighbourhood): the posterior concentrates at that maximum.", "quantifier": "all objectives, data, models that deform continuously, priors of this kind, quantities integrable between the bounds and continuous at the best fit, and neighbourhoods; for the general part all objectives, sequences of datasets, proper priors, and quantities with a mean over the priors", "why_tests_cant": "The limit of a ratio of integrals for growing amounts of data cannot be observed from samples; a test runs one sampler on one dataset, with an error of its own.", "anchors": ["refellips/objectiveSE.py:logpost", "refellips/objectiveSE.py:logp", "refellips/objectiveSE.py:logl", "refellips/objectiveSE.py:chisqr", "refellips/dataSE.py:DataSE"]}
{"id": "C177", "title": "Fits to repeated random measurements approach the truth", "statement": "Let the measurement at the same places (wavelengths and angles of incidence) be repeated independently, with results psi in [0, 90] and delta in [0, 360] of any one distribution, and let all of them be fitted without lnsigma within a compact set of parameters along which the model deforms continuously. If the mean of chi-squared has only one minimum in the set, then almost surely all best fits of the first N measurements approach it as N grows, and so does the posterior for all proper priors that live in the set and do not exclude it. If moreover the noise has mean zero (the mean results are those of the model at some parameters), no other parameters in the set give these values, and the deltas are counted without jumps from 360 to 0 (for instance none is measured more than half a turn from one of the model), then that minimum is there: fits and posterior approach the true parameters. With such jumps they need not, although the mean of the readings is the value of the model.", "quantifier": "all objectives, models, structures with continuous deformation, places, distributions of the results, sequences of independent measurements, datasets with them, proper priors in the set, and quantities with a mean over the priors", "why_tests_cant": "A statement about almost every infinite sequence of measurements and about the limit of fits to them; a test simulates finitely many.", "anchors": ["refellips/objectiveSE.py:chisqr", "refellips/objectiveSE.py:logpost", "refellips/objectiveSE.py:logl", "refellips/dataSE.py:DataSE", "refellips/reflect_modelSE.py:ReflectModelSE"]}
{"id": "C178", "title": "Points that are not numbers", "statement": "In an array passed to a model, a row whose wavelength is nan gets psi = 0 and delta = 0 (not nan, and without the delta offset), all other rows get the values they have alone, and structure.wavelength is nan afterwards; objective.chisqr of data with such points is chi-squared of the other points plus a constant, psi**2 + circular_distance(0, delta)**2 of each such point, whatever the parameters. An angle of incidence that is nan, at a wavelength that is a number, raises AssertionError although all other rows could be calculated. If a measured psi or delta is nan, chi-squared is never a number.", "quantifier": "all models, structures whose slabs can be computed at nan, arrays of rows and datasets with any number of nan in any column", "why_tests_cant": "Tests use clean data; that the loop over np.unique(wavelength) skips nan silently for every array and every model, and what this does to fits, cannot be settled by samples.", "anchors": ["refellips/reflect_modelSE.py:ReflectModelSE.model", "refellips/reflect_modelSE.py:coh_tmm", "refellips/objectiveSE.py:residuals", "refellips/objectiveSE.py:chisqr"]}
{"id": "C179", "title": "Datasets read from HORIBA files", "statement": "open_HORIBAfile(fname) gives a dataset that can be used like any other: for every file with a DATA block and an angle of incidence it presents the rows between the cut-offs in the order of the file, after masking those not masked; objectives compute from it what they compute from the same points in arrays; it can be iterated with unique_wavelength_data and plotted with plot_ellipsdata, and fname may be a string, a path or an open file.", "quantifier": "all files, cut-offs, masks, objectives, models and parameter values", "why_tests_cant": "The columns are pandas Series with the labels of the rows of the file; whether code written for arrays uses positions or labels shows only when rows are missing, and a test on one machine says nothing about encodings elsewhere.", "anchors": ["refellips/dataSE.py:open_HORIBAfile", "refellips/dataSE.py:DataSE", "refellips/dataSE.py:unique_wavelength_data", "refellips/objectiveSE.py:residuals", "refellips/objectiveSE.py:circular_distance", "tools/plottools.py:plot_ellipsdata"]}
{"id": "C180", "title": "Noisy measurements of glass find its dispersion law", "statement": "A bare transparent substrate is measured repeatedly and independently at oblique incidence below its Brewster angle (for all parameters searched), with noise of any distribution but without bias: objective.chisqr of the mean results is 0 at the true parameters. If its dispersion law is known when its values at the measured wavelengths are, then almost surely all best fits (within a compact set) of the first k measurements approach the true parameters as k grows, and so does the posterior for all proper priors within the set that do not exclude the truth. In particular so do the fits of the parameters A, B, C of Cauchy at three or more wavelengths, and of Am, En, P, einf of Sellmeier (with Am != 0 and En > 0 throughout the set) at four or more.", "quantifier": "all substrates, dispersion laws with continuous index, places, noise distributions and compact sets, in exact arithmetic, with delta_offset fixed at 0 and without lnsigma", "why_tests_cant": "convergence for almost all infinite sequences of random data; a test sees finitely many data of one generator", "anchors": ["refellips/objectiveSE.py:ObjectiveSE.chisqr", "refellips/objectiveSE.py:ObjectiveSE.logl", "refellips/reflect_modelSE.py:ReflectModelSE.model", "refellips/dispersion.py:Cauchy.complex", "refellips/dispersion.py:Sellmeier.complex"]}
{"id": "C181", "title": "Noisy measurements of absorbing substrates find their dispersion law", "statement": "For a bare absorbing substrate at oblique incidence model() gives finite psi and delta, with 0 < psi <= 45 and delta - delta_offset strictly between 0 and 180. If such a substrate is measured repeatedly and independently, with noise of any distribution without bias (objective.chisqr of the mean results is 0 at the true parameters) that never takes delta above 180, and its dispersion law is known when its values at the measured wavelengths are, then almost surely all best fits within a compact set approach the true parameters as measurements accumulate, and the posterior mean of every quantity approaches its true value. For one Lorentz oscillator (positive Am and Br, Br < 2 En) three wavelengths suffice for Am, Br, En and einf.", "quantifier": "all absorbing substrates, dispersion laws with continuous index, places at oblique incidence, noise distributions, compact sets and proper priors in them, in exact arithmetic, with delta_offset fixed at 0 and without lnsigma", "why_tests_cant": "convergence for almost all infinite sequences of random data, and a range for all indices and angles; a test sees finitely many", "anchors": ["refellips/reflect_modelSE.py:ReflectModelSE.model", "refellips/reflect_modelSE.py:coh_tmm", "refellips/objectiveSE.py:ObjectiveSE.chisqr", "refellips/objectiveSE.py:ObjectiveSE.logl", "refellips/dispersion.py:Lorentz.complex"]}
{"id": "C182", "title": "Errors of delta below 90 degrees never mislead a fit", "statement": "delta is measured on a circle, and objective.chisqr uses circular_distance. Let the measured delta be that of the true parameters plus an error of less than 90 degrees, up to whole turns, with mean 0 (and let psi be right on average). Then the mean of chi-squared is less at the true parameters than at all parameters with other values of psi or delta, however far away these are and wherever 0 degrees is; so for absorbing substrates (C181) almost surely all best fits approach the truth, also if measured deltas jump between 0 and 360. 90 degrees is the limit: with errors of +u and -u, equally often, the opposite delta has the larger mean of chi-squared exactly if u < 90.", "quantifier": "all models with deltas from 0 to 360, parameter sets, distributions of errors below 90 degrees, true parameters, and all u from 0 to 180", "why_tests_cant": "an inequality between integrals for all distributions of errors, and a limit over infinitely many measurements; a test samples one distribution", "anchors": ["refellips/objectiveSE.py:circular_distance", "refellips/objectiveSE.py:ObjectiveSE.residuals", "refellips/objectiveSE.py:ObjectiveSE.chisqr"]}
{"id": "C183", "title": "What exact data determine, noisy data find", "statement": "For any model without an offset: if perfect data can be fitted (chisqr 0) only by the true parameters within a compact set along which the model deforms continuously, then data with random errors of delta below 90 degrees and no bias find the truth: as measurements accumulate, all best fits within the set approach it, and so does the posterior under every proper prior there. Conversely, parameters that exact data do not distinguish have the same chisqr for all data. For the thickness of a film between two media the condition holds near every positive thickness where psi and delta have values.", "quantifier": "for all structures, data at any number of places, compact sets of parameters, noise laws with errors below 90 degrees, data sets and almost all sequences of measurements; for films, all real indices of ambient and film, substrates other than the film, oblique angles of incidence below total reflection; in exact arithmetic with delta_offset fixed at 0, and without lnsigma for the posterior", "why_tests_cant": "a statement about limits of random sequences and about all models; a test draws a few noisy data sets from one structure", "anchors": ["refellips/objectiveSE.py:circular_distance", "refellips/objectiveSE.py:ObjectiveSE.chisqr", "refellips/objectiveSE.py:ObjectiveSE.logl", "refellips/reflect_modelSE.py:ReflectModelSE.model"]}
{"id": "C184", "title": "Where psi and delta respond to all parameters, noisy data find them locally", "statement": "Let the parameters x0 reproduce exact data, and let no change of the parameters be without effect on psi and delta to first order (this is when the covariance matrix of a fit exists). Then, if the model deforms continuously near x0, within some distance of x0 all best fits (least objective.chisqr) to data with random errors of delta below 90 degrees and no bias approach x0 as measurements accumulate. It suffices that x0 is an isolated perfect fit. For bare substrates with any differentiable dispersion law it suffices that no change of its parameters leaves the index unchanged to first order at all measured wavelengths.", "quantifier": "for all structures, numbers of parameters and of places, noise laws with errors of delta below 90 degrees and almost all sequences of measurements; in exact arithmetic, with delta_offset fixed at 0", "why_tests_cant": "an infinite-data limit for every model that satisfies a rank condition; a test fits one noisy data set", "anchors": ["refellips/objectiveSE.py:circular_distance", "refellips/objectiveSE.py:ObjectiveSE.chisqr", "refellips/objectiveSE.py:ObjectiveSE.setp", "refellips/reflect_modelSE.py:ReflectModelSE.model"]}
{"id": "C185", "title": "Noisy measurements of any bare substrate find its dispersion law", "statement": "Let a bare substrate, absorbing or transparent or either depending on the parameters, be measured at oblique incidence, below the critical angle where it does not absorb, with delta_offset fixed at 0 and chi-squared finite throughout a compact set of parameters. If within that set the complex indices at the measured wavelengths determine the varied parameters, then repeated measurements whose psi is right on average and whose delta errors average to zero and stay below 90 degrees find the parameters: almost surely every sequence of best fits (minima of ObjectiveSE.chisqr over the set) to the first k measurements converges to the truth, and the posterior mean of every function continuous there converges to its value at the truth, for all proper priors supported in the set that give its neighbourhoods mass. A Cauchy law measured at three or more wavelengths is determined in this way, whichever of A, B and C are varied. So is a Sellmeier law at four or more wavelengths, if every parameter vector in the set has Am different from 0 and En positive.", "quantifier": "for all bare substrates with continuous index, compact sets of parameters, numbers of parameters and of places, noise laws with errors of delta below 90 degrees and almost all sequences of measurements; in exact arithmetic", "why_tests_cant": "an infinite-data limit over all substrates and noise laws; a test fits one noisy data set of one material", "anchors": ["refellips/objectiveSE.py:circular_distance", "refellips/objectiveSE.py:ObjectiveSE.chisqr", "refellips/objectiveSE.py:ObjectiveSE.setp", "refellips/reflect_modelSE.py:ReflectModelSE.model", "refellips/dispersion.py:Cauchy", "refellips/dispersion.py:Sellmeier"]}
