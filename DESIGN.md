# Formal model of refellips: design

Lean 4.33 and Mathlib.  `lean/Verif/<Area>/Model.lean` is the model of the code; every definition
cites the file and lines of /repo it models and says where it simplifies.  `Spec.lean` holds the
independent specifications, `*Lemmas.lean` helpers, `Props*.lean` the property theorems with `example`s
that show a concrete non-trivial case meeting the hypotheses.  `properties.jsonl` states the properties
in English, `MANIFEST.json` maps each to its theorems, `seeded/LOG.jsonl` records the mutation tests.

Theorem names start with the property (`C08_...`).  A suffix `_partial` means that the English
property does not hold in full of the code; the docstring says what is missing, and a theorem named
`..._fails_...` (or `C05_clip_breaks_split`, `C12_growing_wave`) proves that it is false there.

## Trusted base

* Lean's kernel and the three axioms `propext`, `Classical.choice`, `Quot.sound` (through Mathlib's real
  and complex numbers).  `Verif/Axioms.lean` prints the axioms of every theorem listed in the manifest
  during the build; none uses any other.  There is no `axiom`, `sorry`, `native_decide`, `bv_decide`,
  `implemented_by` or `unsafe` in the development.  `decide +kernel` is used only for the bundled
  material tables, where the quantifier is the finite table.
* The hand translation from Python to Lean.  The code is never run.
* That the numbers of the bundled csv files were copied correctly into `Disp/MaterialData.lean`.

## Conventions of the model

* Floating point numbers are exact reals or complex numbers.  Rounding, overflow and underflow are not
  modelled except in C148, C149 and C153 (**Rounding** below; C142 compares the exact intermediate values of `coh_tmm` with the largest double; that a value
  beyond it turns the result into nan is not part of the model).  A non-finite result (division by zero, logarithm of zero) is `none`: every division whose
  denominator may vanish is the checked `cdiv`/`rdiv`.  No theorem relies on Lean's `x / 0 = 0`.
* Python exceptions are values (`Except PyErr`); exceptions from outside the package are `.external`.
* Where the sign of an IEEE zero selects a branch (`np.angle` of a negative real, the square root of a
  negative real) the model takes an oracle and theorems quantify over it, or the theorem excludes the
  branch cut.  `Lorentz`, `TaucLorentz` and `Gauss` add `Einf` last, so the imaginary part of a real
  dielectric constant is `+0`.
* Arrays that the code aliases live in an explicit heap (`Data`, `Disp`).  Structures and models are
  mutable objects behind references; parameters are references into a store, so that a parameter shared
  by several layers is expressible.
* External code (numpy, scipy, refnx, pandas) is either modelled as the small total function used here,
  and the definition says so, or is an argument of the model, and the hypotheses of a theorem state what
  is assumed of it.

## Areas: what is modelled and what is not

**TMM** (reflect_modelSE.py 81-294): `interface_r/t`, `coh_tmm` for one point and vectorised,
`Delta_Psi_TMM`.  Assumptions: the two arrays of `Delta_Psi_TMM` have the same length; `np.arcsin` is the
principal branch (continuous from above on the cut beyond 1 as numpy has it); the exponent clip at 35 is
modelled.  `C01`-`C23`, `C93`, `C111`-`C116`, `C155`-`C158`.  Specification: Maxwell's boundary value problem for the field amplitudes.
`Model.lean` describes these functions point by point.  `ArrayModel.lean` transcribes them as they are written,
with arrays of shape (layers, points), numpy broadcasting, slices and the loop over the layers; `C123_refines` and
`C123_delta_psi` prove that the two agree, exceptions included.  In `ArrayModel.lean` an array with one dimension is
an array with one row, `np.inf` in `d_list` is a value that is not finite, and the evanescent warning and the unused
keys of `results` are left out.

**RModel** (reflect_modelSE.py 297-442, tools/plottools.py 146-215): `ReflectModelSE.model`, the curves of
`plot_structure` (`C94`, `C110`), the whole computation from components to psi and delta (`C117`), with the mutable
`structure.wavelength` and the dtype of the output array.  Simplified: the argument is a list of rows;
integers are `Int` truncated toward zero; float32 is not modelled.  `Threads.lean` (`C151`) has `model` as a
program of reads and writes of `structure.wavelength`, and schedules of any number of such programs.  Simplified there:
parameters and components are not changed by any thread; a user defined component, and refnx's `_micro_slabs`, read
the wavelength once; the dispersive flag is not consulted before the wavelength is read.

**EMA** (structureSE.py 858-922): `overall_ri` for complex arguments, three rules.

**Disp** (dispersion.py; structureSE.py 67-141, 925-934): RI, Cauchy, Sellmeier, Lorentz, Gauss,
TaucLorentz, `nm_eV_conversion`, `load_material`, all bundled tables.  Assumptions: `np.interp` is
modelled for nondecreasing tables (the code sorts nothing); `NpInterp.lean` (`C152`) models the algorithm of numpy
(`binary_search_with_guess` and the loop of `arr_interp`) for tables in any order; tables whose wavelengths are all zero are not modelled
(`np.any(self._wav)` guards them); `fftpack.hilbert` is its Fourier multiplier; in `Gauss` a NaN anywhere
on the grid makes the whole result NaN; subclasses defined by users (`User.lean`) are what their `epsilon` or
`complex` return, with complex values; `np.loadtxt` for CSV files is a table of
numbers in a number format given as an argument, squeezed when it has one row or column.
Causality (`C106`) is stated as holomorphic extension to the upper half plane with a limit at infinity and
the reality condition; that this is what "the response does not precede the field" means, and that it is
equivalent to the Kramers-Kronig integrals, is Titchmarsh's theorem, which is not formalised here.  The
uniqueness theorems do not depend on it.  The real part of `Gauss` is a discrete Hilbert transform on a grid;
`C137_close_partial` and `C137_between_partial` bound its distance from the Kramers-Kronig integral at the knots and
in between.

**Struct** (structureSE.py 144-855): components, structures, `|`, `*`, slabs, reversal, solvation,
profiles, plotting's effect on settings.  Outside: `_micro_slabs`, `contract_by_area`, `sld_profile`
(refnx); names of components; a scatterer on the left of `|` when refnx handles it.  `UserList` methods
`extend`, `insert` and item assignment bypass the validation of `append` and are not in `C38`'s claim; they are
the subject of `C150` (`ListOps.lean`), which trusts that refnx's `Structure` overrides none of them.

**Data** (dataSE.py 16-255): `DataSE` on a heap, save and load on lines of text.  Masks are values, not
shared arrays; integer and float arrays are not distinguished.  Number formats are a `Codec`; `Good`
states what is assumed of them (a number written with `%.18e` is read back exactly, contains no tab or
hash sign and is not empty; the header's first field is not a number).  `np.loadtxt` is modelled for
comment sign `#`, a one-character delimiter and rectangular data; the mode in which refnx's
`possibly_open_file` opens a file by default is an argument (`read` or `write`).

**Parse** (dataSE.py 258-895): EP4, HORIBA, M2000 (static and kinetic), FilmSense.  `pd.read_csv` is not
modelled: the readers that use it start from the table it returns.  Dictionaries are association lists in
which only the newest entry for a key counts; insertion order is not modelled.  `str.strip` strips
`Char.isWhitespace`; negative integers in FilmSense headers are not modelled.  How Python prints a number in
the name of a dataset is an argument `fmt`; `NumText` states what is assumed of it: it distinguishes the
numbers of the file and its output contains no letter m.

**Obj** (objectiveSE.py 21-625, tools/plottools.py 7-144): residuals, chi-squared, likelihoods, priors' gating, `setp`, `covar`,
histories of operations on several objectives.  Outside: the bounds of parameters (`logp`, `invcdf` are
arguments), constraints between parameters, chains.  Columns of different lengths are an error (numpy
would broadcast a column of length one).  A non-finite value makes `logl` raise RuntimeError, which is
what happens for NaN.  `approx_derivative` is an oracle that evaluates the residuals at points it
chooses; for `C100` it is assumed to return the derivative where there is one, for `C134` it is scipy's
central difference with arbitrary steps.  `np.linalg.svd` is
assumed to return a singular value decomposition (`IsSVD`).  Of the plots, the points and curves handed
to matplotlib are modelled (`plot`, and `plot_ellipsdata` with an objective); a wrong axis name is an
error, which in `plot` is matplotlib's or an unbound variable.

`NaN.lean` (`C178`) has `nan` in the data; everywhere else data are numbers.

`Labelled.lean` (`C179`) has datasets whose columns are pandas Series, which is what `open_HORIBAfile` makes; the head
of the file lists what is assumed of pandas.  Everywhere else columns are arrays.

**Rounding** (reflect_modelSE.py 81-294, objectiveSE.py 21-40, 204-225): `TMM/Rounded.lean` writes the
calculation of one point once more over a record `Arith` of operations, one for every operation the code
uses, and proves that with exact operations it is the model of **TMM** (`exact_deltaPsi`).  Trusted: the standard
model of floating point (`Arith.Within`): relative errors of at most u, no overflow or underflow, products,
quotients and sines of real numbers are real (numpy's complex functions on real arguments); `np.angle` may take
either value on its cut.  Entries of the slab array are off by u, too.
`Disp/Rounded.lean` does the same for refractive indices (dispersion.py 117-130, 211-220, 290-302, 387-401, 453-481, 549-641;
structureSE.py 105-112, 858-922) with an arithmetic `Mach`.  Of `scipy.fftpack.hilbert` (in `Gauss`) only the size of
the error is assumed: 1000 roundoffs times the sum of the absolute values of the data.  Exponentials of negative
numbers have an absolute error of `u` (they may underflow), the energies of the grid one of 100 `u`.  Assumed of the arithmetic (`Mach.Within`): the standard model with roundoff `u` for each operation
and for `np.log`, `np.arctan`, `np.sqrt`, decimal literals and the conversion of the wavelengths of a table; complex
operations on numbers without imaginary part give such numbers.  A Tauc-Lorentz oscillator with `C² = 2 Ei²` is excluded
(the root of a rounded zero may be `nan`); no two floating point numbers satisfy this.  `roundedModel` puts both together.


**Repr** (`__repr__` of slabs, mixed slabs, structures, models, datasets, objectives).  Texts are lists of
characters; python's quoting of strings is modelled (`str.isprintable` is a parameter), the printed forms of
parameters, scatterers, arrays and functions are parameters.  The reader of the specification knows brackets
and one-line strings, not comments, triple quotes or the grammar of expressions: scatterers, which print as
`<... object at 0x...>`, count as complete.

**Not modelled at all**: the appearance of plots, GUI widgets, `__str__`, pickling, zip and JSON loading of
colour data, logging, performance.

**Params** (`SlabSE.parameters`, `MixedSlabSE.parameters`, `ReflectModelSE.parameters` and `__call__`,
`StructureSE.plot`).  Components are objects behind references with a stored parameter list; scatterers
are not modified after construction.  Lists of parameters are flattened.  Assumed of refnx:
`Structure.parameters` lists the parameters of the components and of the solvent; the `pvals` setter takes
a vector for the (distinct) varying or for all parameters and raises ValueError otherwise; `_micro_slabs`
depends on values of the listed parameters only (`MicroLocal`); the vectors that `pgen` yields are arbitrary.
`C124` ties the values of the parameters to the documented formulas of the materials and to the layers.

## Disagreements between the code and what a user would expect

Each is proved as a theorem with a concrete witness or for all inputs of the stated kind.

| Property | What happens | Theorem |
|---|---|---|
| C05 | the clip of the exponent at 35 makes splitting an opaque layer visible | `C05_clip_breaks_split` |
| C12, C13 | beyond the critical angle of a lossless backing medium the branch of `arcsin` gives a wave that grows away from the interface; the sign of the angle then matters; it also matters for an evanescent film whose exponent is clipped at one sign only | `C12_growing_wave`, `C13_fails_total_reflection`, `C13_fails_clip` |
| C21 | `np.c_` of integer wavelengths and angles makes an integer output array; psi and delta are truncated | `C21_fails_integer` |
| C24-C26, C43 | Bruggeman mixing picks the other root for metals: no solvent, all solvent or a mixture with itself changes the index | `C24_fails_bruggeman`, ... |
| C30 | Bruggeman mixing of passive media can give gain | `C30_fails_bruggeman` |
| C31, C32 | Bruggeman mixing returns index 0 for depolarisation factor 1, and for 0 where the real part is negative | `C31_fails_bruggeman_zero`, `C32_fails_bruggeman_one` |
| C33 | the constructor does not validate the depolarisation factor | `C33_fails_constructor` |
| C35, C36 | `|`, `*` and copying drop settings | `C35_fails_or`, `C36_fails_reversed` |
| C42 | a non-dispersive scatterer is evaluated with `complex(None)` as a layer but with `complex(wavelength)` as a solvent | `C42_fails_nondispersive` |
| C45 | `n` slabs have `n - 1` interfaces, but `align = -n` is accepted and treated like 0 | `C45_fails_range` |
| C47 | `RI` modifies the caller's arrays in place | `C47_fails_mutates`, `C47_fails_second` |
| C53 | Tauc-Lorentz is NaN at every energy if `C > sqrt(2) En` for one oscillator (documented range `C < 2 En`), and at the gap energy | `C53_fails_broad`, `C53_fails_gap` |
| C57, C97 | `aluminium_oxide` lists wavelengths twice and holds the curve of the metal | `C57_fails_increasing`, `C97_fails_aluminium_oxide` |
| C58 | a constant `RI` ignores the shape of its argument | `C58_fails_const` |
| C59 | `mask = None` adds an axis to the accessors | `C59_fails_none` |
| C61, C62 | `reflect_delta` raises for a file with one point and modifies the arrays passed in | `C61_fails_single`, `C62_fails_reflect` |
| C63, C98 | copying loses mask and convention flag; the setter and `refresh` leave the flag stale | `C63_fails_mask`, `C98_fails_setter` |
| C64 | `save` ignores the delimiter of the dataset | `C64_fails_delimiter` |
| C67 | a handle is read from where the header search left it: rows are lost, also by `refresh`; `open_M2000file` documents that it takes a handle, and then loses the first measurement of a static file and the first three rows of a kinetic one | `C67_fails_handle`, `C67_fails_refresh`, `C67_fails_m2000`, `C67_fails_m2000_first`, `C67_fails_m2000_kinetic` |
| C70 | EP4 time series: KeyError with several areas; jittered times lose data | `C70_fails_places`, `C70_fails_mapping`, `C70_fails_jitter` |
| C72 | EP4 averaging takes the arithmetic mean of deltas across the wrap | `C72_fails_wrap` |
| C77 | M2000 kinetic files: times that round to the same key overwrite each other | `C77_fails_close_times` |
| C80-C82 | `circular_distance` is negative for differences above one turn | `C80_fails`, `C81_fails`, `C82_fails` |
| C79 | datasets of a FilmSense dynamic file with equal times overwrite each other; only the last can be had | `C79_fails_equal_times`, `C79_last` |
| C84 | for unweighted data (the default) the likelihood never decreases with `lnsigma`: a fit drives it to its upper bound | `C84_fails` |
| C85 | `logp_extra` and the log-probability of the model are not used | `C85_fails` |
| C86 | a full-length vector with a repeated parameter: the last value wins | `C86_fails` |
| C89 | two objectives that share a model overwrite its delta convention | `C89_fails` |
| C91 | `npoints` ignores the mask | `C91_fails` |
| C94 | plotting a structure leaves it not reversed, and reversed if plotting raises | `C94_fails_reverse` |
| C95 | a material loaded without a name is not named after its file | `C95_fails_default` |
| C101, C102 | `covar` does not notice correlated undetermined parameters; variances are negative with fewer residuals than parameters and not finite with as many | `C101_fails_correlated`, `C102_fails` |
| C103 | `slab.ri = other` or `slab.thick = other` is used by `slabs`, but `parameters` keeps listing the old objects | `C103_fails_ri`, `C103_fails_thick` |
| C105 | if the profile of a sample raises, `structure.plot` leaves the parameters at the values of that sample | `C105_fails` |
| C107 | for data of integers, `plot` shows model values that are not truncated, the residuals use truncated ones | `C107_fails_integer` |
| C108 | `plot_ellipsdata` over wavelengths draws the curve of the first angle only | `C108_fails_angles` |
| C109 | a map that returns to a place gives two datasets of the same name; so do files with names of at most 23 characters | `C109_fails_return`, `C109_fails_short` |
| C116 | at total reflection by a transparent backing medium psi and delta (even as an angle) jump when an arbitrarily small absorption is added (same branch of `arcsin` as C12); they also jump when a transparent film through which the field decays by more than 35 nepers begins to absorb, as only the attenuation of absorbing films is limited | `C116_fails_total_reflection`, `C116_fails_clip` |
| C118 | the documented argument `transform` has no effect | `C118_fails`, `C118_fails_example` |
| C119 | an object `DataSE` does not know gives an objective without points and chi-squared 0; an instance of a subclass of `DataSE` loses its mask and its convention for delta | `C119_fails_other`, `C119_fails_subclass` |
| C121 | at total reflection by a transparent backing medium chi-squared jumps (C116); for deltas of the data more than half a turn outside the range of the model it is not the distance on the circle (C82) | `C121_fails` |
| C122 | for metals the Bruggeman rule may return a solution that amplifies although a passive one exists | `C122_fails` |
| C122 | the Bruggeman formula documented at `StructureSE.slabs` has the volume fraction once more under the root; the code (and the FAQ) does not | `C122_fails_docstring` |
| C125 | `DataSE` is never weighted (`weighted` is set to False and nothing assigns it), so `use_weights` and `objective.weighted = True` have no effect; `objective.weighted` stays False | `C125_fails`, `C125_fails_other` |
| C127 | `load` and `refresh` keep the old mask: a file with another number of points leaves a dataset none of whose accessors works; masked positions stay masked | `C127_fails_length`, `C127_fails_mask`, `C127_fails_refresh` |
| C128 | Bruggeman mixing (and Maxwell-Garnett, for the second material) turns an undefined index into 0 | `C128_fails_bruggeman`, `C128_fails_garnett`, `C128_fails_layer` |
| C130 | a HORIBA DATA block with a heading only is kept as a string; as many rows are read after it as the heading has characters | `C130_fails_heading` |
| C133 | a material file with one row cannot be evaluated; with more than three columns the extinction coefficient is lost; the first line is skipped even if it holds data | `C133_fails_one_row`, `C133_fails_columns`, `C133_fails_headless` |
| C134 | at a fit that reproduces the data, the residuals of delta, being distances, are the same on both sides: `covar` raises LinAlgError if the offset of delta varies, though the data determine it | `C134_fails_exact`, `C134_determined` |
| C135 | the objective overwrites the delta convention of the model with that of the dataset, so a model that folds delta does not fit its own values in a new dataset; an offset can push a folded delta above 180 degrees, where `load` and the setter fold it back | `C135_fails_convention`, `C135_fails_offset` |
| C137 | `Gauss` is documented as Kramers-Kronig consistent; its real part is the transform of a function with period 40 eV (static dielectric constants come out too low, by several percent of the contribution of the oscillators) and its imaginary part does not vanish beyond 20 eV, where its integral diverges | `C137_fails`, `C137_fails_far` |
| C141 | with a delta offset, data that are fitted exactly are no longer fitted once they are read with `reflect_delta=True`: the model adds the offset after folding (see C135) | `C141_fails_offset` |
| C142 | the clip of `delta` is meant to avoid divide-by-0 "and similar errors" for opaque layers; it misses films beyond their critical angle (`delta` has a negative imaginary part: a gap of 75 µm overflows) and products of 21 or more opaque films; the amplitudes, finite if calculated exactly, are then lost | `C142_fails_gap`, `C142_fails_films` |
| C143 | for metals with depolarisation factor 0 the Bruggeman rule returns index 0 over a range of volume fractions, so the fraction is lost | `C143_fails` |
| C144 | for metals the root of the Bruggeman rule changes sides at some volume fraction: the extinction coefficient jumps, e.g. from below -1 to above 1 | `C144_fails` |
| C145 | beyond the critical angle of a bare interface delta comes out as 360 minus Fresnel's phase difference (see C12); folded onto [0, 180] it is right | `C145_fails_phase` |
| C146 | with an offset of n turns, chi-squared of data that the model reproduces exactly is (360 (n - 1))², larger than any bound (see C80) | `C146_fails` |
| C147 | repr() of a `ReflectModelSE` lacks the closing parenthesis, hence also that of an objective; structures, models, datasets and objectives are printed under names that are not theirs; the `mask` printed for a dataset is not a parameter of its constructor (it becomes metadata) | `C147_fails_model`, `C147_fails_objective`, `C147_fails_class` |
| C148 | at the critical angle of a medium without absorption psi loses half of the digits: total reflection from index 2 onto index 1 at 30 degrees, where psi = 45, has errors in psi larger than any multiple of the roundoff | `C148_fails_critical` |
| C149 | at such an angle chi-squared has errors larger than any multiple of the roundoff, too | `C149_fails_critical` |
| C150 | `insert`, item assignment and `extend` accept scatterers (which `append` would turn into slabs), after which `slabs()` fails; slices, sums, multiples and `copy()` of a structure have default settings | `C150_fails_scatterer`, `C150_fails_slice` |
| C151 | `model` passes the wavelength to `slabs` through the attribute `structure.wavelength`, so two threads that evaluate one structure at different wavelengths can return values for the wrong index | `C151_fails_race` |
| C152 | tables whose wavelengths decrease are accepted; the index is then that of the last row everywhere above the smallest wavelength | `C152_fails_decreasing` |
| C153 | a table with two rows at the wavelength (`aluminium_oxide` has some) gives the index of either row, depending on how the wavelengths are rounded when micron are converted to nm | `C153_fails_jump` |
| C153 | the Bruggeman rule for metals: two ways of rounding with the same arbitrarily small roundoff give indices more than 2 apart (`3 + 4i` with a quarter of air, depolarisation factor 1/2) | `C153_fails_metal` |
| C154 | the linear rule ignores the depolarisation factor; metals under the Bruggeman rule have index 0 with the factors 0 and 1 alike | `C154_fails_linear`, `C154_fails_one` |
| C155 | a slab (or film) of exactly critical index, `n = n0 sin(angle)`, makes `coh_tmm` divide by zero: no result, though the graded layer reflects like any other | `C155_fails_critical` |
| C156 | for p polarisation at oblique incidence the finely layered film is not the linear mixture: psi of alternating layers of index 1 and sqrt 3 (half each) on a backing of index 3 at 45 degrees does not tend to psi of the one `MixedSlabSE` film with the linear rule | `C156_fails_oblique` |
| C160 | `Sellmeier.epsilon` takes a wavelength (nm) where `epsilon` of the other models, and the base class, take a photon energy; given an energy it returns less than `Einf` for every transparent material with a band in the ultraviolet | `C160_fails_sellmeier` |
| C165 | The line `datapoints` of `str(objective)` counts masked points too (see C91); for a dataset without a name the line above it counts without them, so one text has two different numbers | `C165_fails` |
| C167 | At total reflection the misfit jumps when the backing medium absorbs the least bit (C116). For data equal to the limit there is no best extinction coefficient between 0 and 1: chi-squared gets as small as one likes but is never smallest. | `C167_fails` |
| C169 | Data have no weights (C125), so covar multiplies by the reduced chi-squared: a further point that fits badly increases the error bars. Also, while a combination of parameters cannot be determined covar reports small variances for it (C101), which grow once further data determine it. | `C169_fails_unweighted`, `C169_fails` |
| C170 | With `lnsigma` the squares of the residuals are divided by the square of the model, without the logarithm of the variance for data without weights (C84). The posterior then prefers larger psi and delta to a better fit, and the best fit is not the most probable one. | `C170_fails` |
| C171 | Overdamped Lorentz oscillators (broadening above twice the energy) are not determined by the index: two of them can equal a single third one at every wavelength | `C171_fails` |
| C171 | A Sellmeier model with `En = 0` does not determine `Am` and `Einf`, only their sum | `C171_fails_sellmeier` |
| C172 | As for C171: overdamped Lorentz oscillators with the same index fit the same data | `C171_fails` |
| C173 | A flat prior without an upper bound (refnx's default, `bounds=(-inf, inf)`) makes the posterior improper, whatever is measured: psi and delta are angles, so chi-squared is bounded and the likelihood does not vanish at infinity. | `C173_improper` |
| C178 | a point whose wavelength is nan is calculated as psi = delta = 0 instead of nan, so that chi-squared is a number and a fit goes on without it; a nan angle instead stops the whole calculation | `C178_wavelength`, `C178_chisqr`, `C178_angle` |
| C179 | `open_HORIBAfile` works only where Python has an encoding "ANSI" (Windows) and only for a string; the dataset cannot be iterated by wavelength, and `plot_ellipsdata` over wavelengths raises KeyError when the first row is cut off or masked | `C179_fails_encoding`, `C179_fails_handle`, `C179_fails_iteration`, `C179_fails_plot`, `C68_fails_series` |

Also noted, without a property: `wavelength=0` counts as no wavelength (`C44`);
scatterers have no `repr` of their own, so that of a slab cannot be evaluated.

## How the properties are proved

* C01-C13, C93: induction over the layers; existence and uniqueness of the amplitudes by invertible
  transfer matrices, energy by the Poynting flux as a monotone quantity, reciprocity by determinants.
* C14-C23: complex algebra on `Delta_Psi_TMM`; the model loop by induction over the unique wavelengths.
* C24-C32: complex algebra with the principal square root; bounds by real analysis.
* C33-C45, C94: induction over component lists and over sequences of operations on a store.
* C46-C58, C95-C97: real analysis on finite tables; kernel evaluation of the bundled tables lifted to all
  wavelengths by the interpolation theorem; the dispersion formulas restated independently.
* C59-C68, C98: heap invariants; files as lists of lines, induction over lines.
* C69-C79, C99: list programs; partition and grouping invariants; parsers by induction over lines.
* C80-C92: state invariants over arbitrary histories of operations; real analysis for the distances.
* C100-C102: linear algebra over singular value decompositions.
* C103-C110: invariants over histories; Hilbert transforms of the oscillators by uniqueness of bounded
  holomorphic functions; the plotted curves as values of the model functions.
* C117: composition of the theorems on slabs, mixing, the model loop, psi/delta and Maxwell's equations.
* C111-C116: on top of C01 and C14; scaling and phase arguments on the amplitude relations, continuity of
  the transfer matrices away from the branch cut of the square root; for films the choice of the root cancels in
  the product.
* C118, C119: unfolding of the constructor and of the residuals; counterexamples in the worlds of C81, C89.
* C123, C124: column-wise reading of the array program; unfolding of materials and layers at a store of values.
* C125: sums as in C83.  C126: C09 and C93 together.
* C127, C128, C130: unfolding on top of C59, C44 and C74.  C129: closed form of the Hilbert kernel, signs of its
  values; signs of the Lorentz terms.
* C131: the phase factor of the film is a root of a quadratic equation given by psi and delta.  C132: on top of
  C40 and C17.  C133: induction over the lines of the file, then C46.
* C134: even functions have no central difference; chain rule through the distance on the circle.
* C135: on top of C64, C81 and C98.  C136: the power flow bounds the wave that returns through the film; the
  Wronskian of the two fields compares the samples.
* C137: the samples at odd distances are the midpoint rule for the difference quotient, whose error is bounded by
  the third derivative of the Gaussians; the cotangent is compared with the reciprocal.  Between the knots the same
  derivative bounds the chord of the transform.
* C138: every step of the calculation is smooth away from the branch points of square root and logarithm and from
  the limit of opacity.  C139: derivative of the Airy formula at thickness zero; the bare substrate by C04 and C113.
* C140: uniqueness from C106 against a constant; Sellmeier as Lorentz terms of width 0.  (docs/faq.rst says that
  neither model is Kramers-Kronig consistent.)
* C141: folding is a contraction of the circle; C61, C81 and the range of `np.angle`.
* C142: the sum of the moduli in a row of a product of matrices is at most the product of those sums.
* C122: both roots of the Bruggeman quadratic in the first quadrant would have a product in the wrong half plane.
* C143: each equation is linear in the fraction.  C144: the same argument as for C122 keeps the root off the cut.
* C145: the backing medium takes no power (C09); the ratio of the amplitudes as exp(2 i arctan).
* C146: ranges of psi (arctan) and delta (arg) at one point, then lists; three half turns are what the circular distance tolerates.
* C147: a reader of brackets and strings as an automaton; induction over the characters of a name with python's quoting rules; a frame lemma (a text that is complete is complete inside open brackets).
* C148: errors of the order of the roundoff form a filter limit (big O over all arithmetics with roundoff u); they pass through every smooth operation, hence by induction through the layers; delta on the circle.
* C149: C148 at every point; the dot product by induction over the tree of additions.
* C150: simulation: each edit of the model does what the relation `Edited` says; the relation is total, hence functional; induction over the history.
* C151: the program of reads and writes run alone is the function `model` (refinement); invariants of single steps, by induction over the schedule, for a thread that is alone, for one common wavelength, and for programs to which the values read make no difference.
* C152: loop invariants of the linear and the binary search, for arrays in any order; then induction over the table.
* C153: as C148, for the formulae of the materials and the mixing rules, by induction over nested mixtures (with passivity and, for Bruggeman, the quadrant as invariant); the errors of the indices are then treated as errors of the array in C148.
* C154: the equations of the rules solved for the factor; for transparent materials, the sign of the Bruggeman quadratic at a trial value (it splits into `e (e - mean) - L (e - a)(e - b)`, and the mixture lies strictly between the materials).
* C155: Maxwell's equations for tangential fields as a linear differential equation in depth (existence by gluing short solutions, `LinODE`; uniqueness by Grönwall); the code's film matrix is the exact solution for a constant index, so the slabs solve the equation with a piecewise constant index and Grönwall bounds the difference; the reflected amplitude is a quotient whose denominator cannot vanish since a passive layer carries no power backwards. Example with a closed solution: `n(z)^2 = (2-z)^2 + i`.
* C156: the product formula of Chernoff (`Chernoff`): the film matrix of one thin period is the identity plus its thickness times the averaged generator, up to second order, so the power tends to the exponential; that exponential is the flow of Maxwell's equations in the uniaxial film (uniqueness by Grönwall) and a passive film carries no power backwards, so the denominator is not zero. Missing from the `_partial` theorems: a layer or film of exactly critical index, and films outside the layered one with `|Im delta| > 35` (clipped by `coh_tmm`). Witness for the failure: the linear mixture is a half-wave film.
* C157: a period is a linear map of the tangential fields that keeps the Wronskian; Cayley-Hamilton splits every field into the two Bloch waves, and the attenuated one takes over. A wave that grows inwards would carry power backwards, so the wave in the backing medium is not one. Absorbing cells: the power falls strictly in an absorbing film (its derivative cannot vanish on an interval unless the field does).
* C158: a function with increasing slope lies below its chords; add and subtract a parabola. The limits by C116 on the one point compactification of the natural numbers.
* C159: the substitutions `y = (E - En²/E)/Br` and `E -> En²/E` (Cauchy-Schlömilch); sums over the oscillators by induction.
* C160: case analysis of the lookup of `complex`.  C161: a relation between structures, preserved by every step of `slabs` and of the loop over wavelengths.
* C162: the sample is cut at the first film that the limit touches.  The films above it are the same with and without the limit; in the film the wave that comes back is at most `(g+√(1+g²)) e^{-70}` of the wave that goes in on either side (conservation of power below the cut), so both reflected amplitudes are near that of the same infinitely thick film (C136).  The hypothesis on the normal wave number (at most a million times more imaginary than real) keeps `g` away from `e^{70}`; a transparent film beyond its critical angle is not limited by the code at angles from 0 on and needs no hypothesis.
* C163: induction over the measurements; in each class of thicknesses that fits the earlier ones a representative is chosen that fits the next, if there is one (C131, C114).
* C164: the Airy form of the amplitude (C03) with the Fresnel coefficients written in tilted admittances; its numerator vanishes iff its real and imaginary parts do, which leaves three cases. Exact arithmetic only: in floating point the amplitude is tiny instead of zero and psi is a number made of rounding errors.
* C165: the text as the list of lines joined by line breaks; printed forms of numbers, functions and parameters are parameters of the model (`Fmt`). The effect of printing is that of `chisqr()`, with the simulation of C90. Not modelled: the order in which python reads attributes while another thread writes them.
* C166: chi-squared 0 makes every residual 0, so the code reproduces every point (delta up to a turn), and C163 applies to the rows the structure gives (C117); with a common period the cells agree up to a turn (C163), and the circular distance to a delta in the range of the model does not see the turn.
* C167: chi-squared is continuous on the set (C121), hence has a minimum on it and on the part outside a neighbourhood of the best fits. The counterexample takes for data the limit of vanishing absorption beyond the critical angle, which the code approaches but never attains.
* C168: Minkowski's inequality for the residuals, with the triangle inequality of the circular distance; then C167 for the limit.
* C169: the Gram matrix of the Jacobian grows when rows are added or columns removed, and inversion reverses the order (a Schur complement argument without blocks).
* C170: C83 and C87 combined for all vectors at once; existence from C167.
* C171: clearing denominators turns equality at finitely many wavelengths into a polynomial with too many roots; evaluating at the complex
  poles separates the oscillators (`Verif/Disp/Fractions.lean`). For Lorentz models the values at negative energies come from complex
  conjugation, which halves the number of wavelengths needed. Missing: overdamped Lorentz oscillators; `Gauss` is not treated.
* C172: C81 (residuals), C117 (what the model computes), C112 (a substrate from its data) and C171 combined.
* C173: the density is a continuous function on a box and zero outside it, so integrable with positive integral (`Searches.continuousOn`, `within_iff`); conversely the bound on chi-squared of C146 bounds the density from below on a set of infinite measure.  `Deforms.comp` moves a family of states along a continuous change of parameters. Proper priors: every term of the likelihood is at least 0 (the variance is at least 1), so the density is at most the product of the priors, which is integrable by Fubini.  Measurability is a hypothesis there: the sign of a zero is an arbitrary function in the model, and with `lnsigma` it decides between delta = 0 and 360.
* C174: in each slab the fields are corrected by a quadratic in depth that vanishes at both ends of the slab and turns the equations of the graded layer into those of the slab up to second order (`mended`), so Grönwall gives the squared thickness; the step from fields to amplitudes is shared with C155 (`Graded.rate_of`). Same restrictions as C155 (35 nepers for films, slabs of exactly critical index: `C155_fails_critical`). Nothing is said about the constant, nor that an index taken elsewhere in the slab is worse.
* C175: the distance of two deltas that are close and both within reach of the offset is their difference, so chi-squared is
  near a perfect fit a sum of squares of differentiable functions; its quadratic form is bounded below on the unit sphere
  (compactness), and the bound of C168 on what noise does to the misfit turns that into a bound on the parameters. For a
  bare substrate the formula of C112 for the squared index (or its conjugate, if delta is folded) is a differentiable function
  of psi and delta, so a direction without effect on them has none on the index.
* C176: chi-squared of `N` copies of the points is `N` times that of the points, so the density is, up to a factor that does
  not depend on the parameters, the prior times the `N`-th power of `exp(-chi2/2)`; Mathlib's theorem on peak functions
  (powers of a continuous function with a unique maximum on a compact set) gives both limits as a ratio. With `lnsigma`,
  other priors and changing data (`C176_consistent`) the bound on the mass away from the maximum is by hand; that the mean
  log-likelihood converges uniformly is a hypothesis (C177 proves it for random data without `lnsigma`).
* C177: chi-squared of one random result is a random continuous function of the parameters, bounded as psi and delta are;
  Mathlib's strong law in the Banach space of continuous functions on the compact set searched gives uniform convergence of
  the mean of chi-squared, almost surely. A minimum of a continuous function on a compact set that is unique is a clear one,
  so best fits converge, and the posterior by `C176_consistent`. For unbiased noise the mean of chi-squared is its value at
  the truth plus the squared distances of the model from there. Results are modelled as random elements of
  `[0, 90] x [0, 360]` per place; that noise has mean zero is a hypothesis on the instrument, and so is that delta does
  not jump from 360 to 0 (`C177_needs_turns`).
* C178: `Obj/NaN.lean` writes the loop of `model` and `chisqr` once more for columns that may contain `nan` (`none`);
  induction over the wavelengths and rows relates it to the model for numbers. `structure.slabs()` at the wavelength `nan`
  is an argument that does not raise; comparisons with `nan` are false.
* C179: the labels of the rows increase, so matching by label is matching by position and the residuals are those of
  arrays; `data.aoi[0]` finds the label 0 only if the first row of the file is presented first.
* C180: C177 with its conditions discharged.  Below the Brewster angle delta of a transparent substrate is 180 (C113), so that no
  reading is more than half a turn away; psi determines the index (C112), and the index the law (C171).
* C181: the ratio of the two Fresnel coefficients of an absorbing substrate lies in one half of the complex plane, so delta lies in
  half a turn; then as for C180, with psi and delta (C112) instead of psi alone.
* C182: the square of the distance on the circle to another delta exceeds the square of the error plus a multiple of the error, if
  the error is below 90; this multiple has mean 0.
* C183: if exact data have one zero of chi-squared in a compact set, every other point has a psi or a delta that differs from
  the truth's (modulo 360), so by C182 the mean of chi-squared has a unique minimum there and C177 applies; for a film, C166
  leaves finitely many thicknesses modulo the period, hence isolated ones, and C121 gives values near the truth.
* C184: C175 isolates the perfect fit if the derivatives of psi and delta have no common kernel; an isolated perfect fit is
  determined by exact data within some distance, so C183 applies there.
* C185: C172 reads the index of a bare substrate off exact data at each place, so parameters that the indices determine are
  determined by exact data, and C183 applies.  That chi-squared is finite on the set of parameters is a hypothesis: it
  excludes the Brewster angle of transparent substrates, where delta is undefined.
* C120, C121: sums over points on top of C81-C83; continuity from C116 and C117, the distance on the circle
  written as an arccosine.

## Mutation tests

In a copy of `lean/` outside this directory one definition of a model is edited so that a stated claim
becomes false, everything is rebuilt, and the theorems that no longer check are recorded.  A mutant that
breaks a claim whose theorems all still check is a reason to tighten them.  `seeded/LOG.jsonl` has a line
for each attempt, also for edits that were rejected before any theorem was tried; `theorems_tightened` then
says why.

Some mutants edit a specification or weaken a hypothesis of a theorem instead (`(specification)` and
`(statement)` in the log).  That such a mutant fails shows that the proof uses the hypothesis.  It does not
show that the weaker statement is false, which is proved only where a theorem named `_fails`, `_sharp` or
`_converse` says so.
