{"id": "C01", "title": "ArrayAxis reads are never stale", "statement": "For any collection of ArrayAxis objects and any interleaving of reads (array, size, actual_sample), assignments to start/end/sample, and copy(), every read of `array`, `size` or `actual_sample` returns exactly what a brand-new ArrayAxis built from the object's current start, end and sample would return; assignments to one axis never change what another axis (including a copy of it) returns.", "quantifier": "every finite history of axis operations over any number of axis objects, every number type", "why_tests_cant": "the lazily cached array has to be invalidated on every setter and survive copying, in every order of calls; tests try one order", "anchors": ["sweep_design/axis.py:ArrayAxis.array", "sweep_design/axis.py:ArrayAxis._reset_property", "sweep_design/axis.py:ArrayAxis.copy", "sweep_design/axis.py:ArrayAxis.__init__", "sweep_design/axis.py:ArrayAxis.start", "sweep_design/axis.py:ArrayAxis.end", "sweep_design/axis.py:ArrayAxis.sample", "sweep_design/axis.py:ArrayAxis.actual_sample", "sweep_design/axis.py:ArrayAxis.size"]}
{"id": "C02", "title": "Shape of an axis", "statement": "For every start, end and non-zero sample, ArrayAxis.array has round(|(end-start)/sample|)+1 points (round half to even), the first is start, the last is end when there is more than one point, all gaps are equal, and the points are strictly increasing (decreasing) when end>start (end<start). A zero sample makes the read raise instead of returning an array.", "quantifier": "all real start, end, sample", "why_tests_cant": "size is obtained by rounding a quotient; only a proof covers all quotients including half-integers", "anchors": ["sweep_design/axis.py:ArrayAxis.array"]}
{"id": "C03", "title": "Actual spacing stays close to the requested sample", "statement": "If end-start is a whole multiple of sample, the gap between neighbouring points is exactly |sample| and actual_sample equals it (for increasing axes); otherwise, for an axis with n>1 points, the gap differs from |sample| by at most |sample|/(2(n-1)).", "quantifier": "all real start, end, non-zero sample", "why_tests_cant": "a quantitative bound over a continuum of inputs", "anchors": ["sweep_design/axis.py:ArrayAxis.array", "sweep_design/axis.py:get_actual_sample"]}
{"id": "C04", "title": "Axis from an array without rounding is lossless", "statement": "For every evenly spaced increasing array of at least two numbers, get_array_axis_from_array(x, round_dx=False).array equals x; arrays with fewer than two entries raise.", "quantifier": "all evenly spaced arrays of any length and step", "why_tests_cant": "all lengths and steps", "anchors": ["sweep_design/axis.py:get_array_axis_from_array", "sweep_design/axis.py:get_actual_sample"]}
{"id": "C05", "title": "Axis from an array with the default step rounding", "statement": "With the default rounding of the step, a Relation built from an evenly spaced increasing float array x and as many y values is accepted exactly when the rounded step reproduces the point count, and whenever it is accepted its x positions are exactly x; it is always accepted when the step is a whole number or the reciprocal of a whole number, and there are evenly spaced arrays (step 0.7) which are rejected with NotEqualError.", "quantifier": "all evenly spaced float arrays of any length and step", "why_tests_cant": "acceptance depends on how step and length round together; sampling steps misses the failing region", "anchors": ["sweep_design/axis.py:get_array_axis_from_array", "sweep_design/relation.py:Relation.__init__"]}
{"id": "C06", "title": "Common axis of two axes", "statement": "The common axis starts at the smaller start, ends at the larger end and uses the smaller sample; the operation is commutative, associative and idempotent, and both input ranges are contained in the result's range.", "quantifier": "all pairs and triples of axes", "why_tests_cant": "algebraic laws over a continuum", "anchors": ["sweep_design/defaults/methods.py:get_common_x"]}
{"id": "C07", "title": "Relation constructor decision table", "statement": "Relation(x, y): given another relation it copies its axis and y and ignores y; otherwise y=None raises BadInputError; otherwise x (converted if it is array-like) and y are accepted if and only if the axis size equals the number of y values, and a mismatch raises NotEqualError carrying both sizes.", "quantifier": "all inputs of each kind and all sizes", "why_tests_cant": "exhaustive over input kinds and sizes", "anchors": ["sweep_design/relation.py:Relation.__init__"]}
{"id": "C08", "title": "Every relation an operation returns is balanced", "statement": "Every relation returned by any sequence of constructor calls, select_data, exp, diff, integrate, interpolate_extrapolate, shift, arithmetic, equalize, correlate and convolve has exactly as many y values as axis points, so get_data on it succeeds.", "quantifier": "all programs built from these operations, all inputs", "why_tests_cant": "closure over arbitrary compositions", "anchors": ["sweep_design/relation.py:Relation"]}
{"id": "C09", "title": "get_data never returns arrays of different length", "statement": "After any history of assignments to a relation's start, end and sample, get_data either returns two arrays of equal length or raises NotEqualError (or an arithmetic error for a zero sample); which of them is decided only by the current start/end/sample and the number of y values.", "quantifier": "all histories of setter calls", "why_tests_cant": "arbitrary histories", "anchors": ["sweep_design/relation.py:Relation.get_data", "sweep_design/relation.py:Relation.start"]}
{"id": "C10", "title": "select_data returns exactly the requested window", "statement": "For every balanced relation on an axis with non-zero sample and every window [a,b], select_data(a,b) returns, in order, exactly the (x,y) pairs of the relation whose x lies in [a,b], with x positions unchanged and sample unchanged; it raises IndexError if and only if no point lies in the window and never raises NotEqualError.", "quantifier": "all balanced relations, all windows", "why_tests_cant": "the new axis is rebuilt from end points and the nominal sample, so its size could disagree with the number of kept y values; needs a proof about rounding", "anchors": ["sweep_design/relation.py:Relation.select_data"]}
{"id": "C11", "title": "Window selection composes", "statement": "On an increasing axis select_data() with no bounds returns the same data, selecting twice with the same window equals selecting once, and selecting [a,b] then [c,d] gives the same data as selecting [max(a,c), min(b,d)].", "quantifier": "all balanced relations on increasing axes, all windows", "why_tests_cant": "algebraic laws over a continuum", "anchors": ["sweep_design/relation.py:Relation.select_data", "sweep_design/relation.py:Relation.__getitem__"]}
{"id": "C12", "title": "Indexing by a number returns the nearest sample", "statement": "r[v] returns (x_i, y_i) for a sample x_i whose distance to v is minimal among all samples, the lowest such index on ties; r[a:b] equals select_data(a,b).", "quantifier": "all balanced relations, all numbers v", "why_tests_cant": "minimality over all points for all v", "anchors": ["sweep_design/relation.py:Relation.__getitem__"]}
{"id": "C13", "title": "integrate is the cumulative trapezoid rule", "statement": "When integrate succeeds, its i-th value equals sample times the sum over j<=i of (y_j+y_{j+1})/2, the result starts one sample later, has the same end and sample and one point less.", "quantifier": "all relations", "why_tests_cant": "all lengths and values", "anchors": ["sweep_design/defaults/methods.py:integrate", "sweep_design/relation.py:Relation.integrate"]}
{"id": "C14", "title": "diff is the forward difference at midpoints", "statement": "When diff succeeds, its i-th value equals (y_{i+1}-y_i)/sample, start and end move inwards by half a sample, and there is one point less.", "quantifier": "all relations", "why_tests_cant": "all lengths and values", "anchors": ["sweep_design/defaults/methods.py:differentiate", "sweep_design/relation.py:Relation.diff"]}
{"id": "C15", "title": "When integrate and diff are accepted", "statement": "For a balanced relation with at least two points and end-start and sample of equal sign, integrate and diff succeed unless |end-start|/|sample| is exactly half way between two integers n and n+1, and then they raise NotEqualError; a one-point relation and a relation whose sample has the wrong sign are always rejected with NotEqualError.", "quantifier": "all balanced relations", "why_tests_cant": "acceptance depends on half-integer quotients, a measure-zero set that sampling does not hit", "anchors": ["sweep_design/defaults/methods.py:integrate", "sweep_design/defaults/methods.py:differentiate"]}
{"id": "C16", "title": "diff and integrate are inverse up to two-point averaging", "statement": "When the calls succeed, diff(integrate(r)) has values (y_{i+1}+y_{i+2})/2, and integrate(diff(r)) has values (y_{i+1}+y_{i+2})/2 - (y_0+y_1)/2; both have two points less and the axis [start+3/2 sample, end-1/2 sample].", "quantifier": "all relations", "why_tests_cant": "all lengths and values", "anchors": ["sweep_design/defaults/methods.py:integrate", "sweep_design/defaults/methods.py:differentiate"]}
{"id": "C17", "title": "integrate and diff are linear", "statement": "For relations on the same axis and any scalars c, integrate and diff of c*r1+r2 equal c times the result for r1 plus the result for r2.", "quantifier": "all relations with a shared axis, all scalars", "why_tests_cant": "algebraic law over a continuum", "anchors": ["sweep_design/defaults/methods.py:integrate", "sweep_design/defaults/methods.py:differentiate", "sweep_design/relation.py:Relation._operation"]}
{"id": "C18", "title": "get_norm is a quadratic energy", "statement": "For a real balanced relation on an increasing axis with positive sample, get_norm is non-negative, get_norm(c*r)=c^2*get_norm(r), and with at least two points it is zero if and only if all values are zero. On an axis that runs backwards and has a positive sample it is never positive, and negative unless all (real) samples are zero. A negative sample exchanges the two: the result on an axis with the opposite sample is the opposite number, so the norm is non-negative on a backward axis with negative sample and never positive on a forward axis with negative sample.", "quantifier": "all real relations, all scalars", "why_tests_cant": "all lengths and values", "anchors": ["sweep_design/relation.py:Relation.get_norm", "sweep_design/defaults/methods.py:one_integrate"]}
{"id": "C19", "title": "Interpolating on the own axis changes nothing", "statement": "For every balanced relation with a non-zero sample, interpolate_extrapolate onto an axis with the same start, end and sample returns the same x and y.", "quantifier": "all balanced relations", "why_tests_cant": "all grids, increasing and decreasing", "anchors": ["sweep_design/relation.py:Relation.interpolate_extrapolate", "sweep_design/defaults/methods.py:interpolate_extrapolate"]}
{"id": "C20", "title": "Interpolation is piecewise linear and zero outside", "statement": "interpolate_extrapolate onto any new axis always succeeds for a balanced relation, keeps the new axis, and at each new point x the value is 0 if x lies outside the old range, and otherwise lies on the straight line between the two neighbouring samples; hence real values stay between the smallest and largest old value inside the range.", "quantifier": "all relations, all new axes", "why_tests_cant": "all pairs of grids", "anchors": ["sweep_design/defaults/methods.py:interpolate_extrapolate", "sweep_design/relation.py:Relation.interpolate_extrapolate"]}
{"id": "C21", "title": "Interpolation is exact for straight lines", "statement": "If y_i = p*x_i+q at every sample of a relation with at least two points, interpolate_extrapolate gives exactly p*x+q at each new point inside the old range.", "quantifier": "all lines, all grids", "why_tests_cant": "all pairs of grids", "anchors": ["sweep_design/defaults/methods.py:interpolate_extrapolate"]}
{"id": "C22", "title": "equalize brings both operands on one axis", "statement": "equalize(r1,r2) returns two relations with the same start, end and sample, equal to the common axis (or the shared axis object), swapping the arguments swaps the results, and the data returned does not depend on whether the two operands share one axis object or have two axis objects with equal start, end and sample.", "quantifier": "all pairs of balanced relations", "why_tests_cant": "axis equality is object identity in the code; the two paths must agree for all data", "anchors": ["sweep_design/relation.py:Relation.equalize"]}
{"id": "C23", "title": "Arithmetic with a number is pointwise", "statement": "r+c, c+r, r-c, c-r, r*c, c*r, r/c, c/r keep the axis and apply the operation to every y value with the operands in the written order.", "quantifier": "all relations, all numbers", "why_tests_cant": "all lengths and values, reflected forms", "anchors": ["sweep_design/relation.py:Relation._operation", "sweep_design/defaults/methods.py:math_operation", "sweep_design/core.py:MathOperation", "sweep_design/relation.py:Relation.__add__", "sweep_design/relation.py:Relation.__radd__", "sweep_design/relation.py:Relation.__sub__", "sweep_design/relation.py:Relation.__rsub__", "sweep_design/relation.py:Relation.__mul__", "sweep_design/relation.py:Relation.__rmul__", "sweep_design/relation.py:Relation.__truediv__", "sweep_design/relation.py:Relation.__rtruediv__"]}
{"id": "C24", "title": "Arithmetic between relations on equal axes is pointwise", "statement": "For two balanced relations whose axes have the same start, end and sample, r1 op r2 has that axis and y values y1_i op y2_i.", "quantifier": "all pairs of relations on equal axes", "why_tests_cant": "all lengths and values", "anchors": ["sweep_design/relation.py:Relation._operation", "sweep_design/relation.py:Relation.equalize"]}
{"id": "C25", "title": "Arithmetic between relations on different axes", "statement": "For balanced relations on any two axes, r1 op r2 lives on the common axis and its value at each point is op applied to the zero-extended linear interpolants; + and * do not depend on the operand order, and the operation never raises NotEqualError.", "quantifier": "all pairs of balanced relations", "why_tests_cant": "all pairs of grids", "anchors": ["sweep_design/relation.py:Relation._operation", "sweep_design/defaults/methods.py:get_common_x"]}
{"id": "C26", "title": "Ring laws of relation arithmetic", "statement": "On equal axes + and * are commutative and associative, * distributes over +, r-r is zero everywhere, (r1+r2)-r2 gives r1 back and r1-r2 equals r1+(-1)*r2.", "quantifier": "all triples of relations on equal axes", "why_tests_cant": "algebraic laws", "anchors": ["sweep_design/relation.py:Relation.__add__", "sweep_design/relation.py:Relation.__sub__", "sweep_design/relation.py:Relation.__mul__"]}
{"id": "C27", "title": "Relation.shift moves the axis only", "statement": "Relation.shift(d) succeeds for a balanced relation, adds d to every x, keeps y, sample and size; shift(a) then shift(b) equals shift(a+b) and shift(0) is the identity on the data.", "quantifier": "all relations, all shifts", "why_tests_cant": "algebraic laws", "anchors": ["sweep_design/relation.py:Relation.shift"]}
{"id": "C28", "title": "Convolution values", "statement": "For relations whose axes span whole multiples of one common sample, Relation.convolve succeeds, its axis is [-E,E] with E the larger duration, and value k is the sum over i+j=k of y1_i*y2_j with the shorter operand zero-padded; it is commutative, bilinear and convolving with a unit impulse reproduces the other operand.", "quantifier": "all such pairs of relations", "why_tests_cant": "all lengths and values", "anchors": ["sweep_design/defaults/methods.py:convolve", "sweep_design/relation.py:Relation.convolve"]}
{"id": "C29", "title": "Correlation values and autocorrelation peak", "statement": "Under the same conditions Relation.correlate at lag k is the sum of y1_{i+k}*conj(y2_i); swapping the arguments reverses (and conjugates) the result; for a real relation the autocorrelation is symmetric and its value at lag 0 is the largest in absolute value.", "quantifier": "all such pairs of relations", "why_tests_cant": "all lengths and values", "anchors": ["sweep_design/defaults/methods.py:correlate", "sweep_design/relation.py:Relation.correlate"]}
{"id": "C30", "title": "When convolve and correlate are accepted", "statement": "With E the larger duration and s the smaller sample (both positive), Relation.convolve and Relation.correlate succeed if and only if round(2E/s) = 2 round(E/s), and otherwise raise NotEqualError; they always succeed if E is a whole multiple of s and always fail if the fractional part of E/s is strictly between 1/4 and 3/4.", "quantifier": "all pairs of balanced relations on increasing axes with positive samples", "why_tests_cant": "acceptance depends on the rounding of two quotients", "anchors": ["sweep_design/defaults/methods.py:correlate", "sweep_design/defaults/methods.py:convolve"]}
{"id": "C31", "title": "Which operands arithmetic accepts", "statement": "Relation and Signal arithmetic with an operand numpy cannot combine raises TypeFuncError; Spectrum arithmetic converts a Signal to its spectrum and raises ConvertingError for anything that is not a relation, int, float or complex; Signal arithmetic converts a Spectrum to its signal; convolve and correlate of Signal/Spectrum raise ConvertingError and those of Relation TypeFuncError on non-relations.", "quantifier": "all operand kinds and classes", "why_tests_cant": "exhaustive over class/operand combinations", "anchors": ["sweep_design/signal.py:_inp2signal_operation", "sweep_design/signal.py:_inp2signal", "sweep_design/spectrum.py:_input2spectrum_operation", "sweep_design/spectrum.py:_input2spectrum", "sweep_design/relation.py:Relation.correlate"]}
{"id": "C32", "title": "Operations never modify their operands", "statement": "No call of a constructor, getter, get_data, select_data, exp, diff, integrate, interpolate_extrapolate, shift, equalize, arithmetic operator, indexing or get_spectrum/get_signal changes the start, end, sample, array or y of any object that existed before the call, whether the call returns or raises; only explicit assignments and in-place array writes by the user do. This holds for every choice of Config methods that do not themselves modify the objects they are given; the math and interpolation methods may even write into the arrays they receive.", "quantifier": "all heaps, all histories, all operand aliasing, all Config methods that respect the contract", "why_tests_cant": "aliasing and exception paths; arbitrary histories", "anchors": ["sweep_design/relation.py:Relation", "sweep_design/axis.py:ArrayAxis.copy"]}
{"id": "C33", "title": "Results do not share axes or y with operands", "statement": "The relation returned by arithmetic, select_data, exp, diff, integrate, interpolate_extrapolate, shift, equalize and Relation(r) has its own axis object and its own y array: later assignments to its start/end/sample or writes into its y never change any operand, and vice versa. (A relation built from an ArrayAxis object shares that object.)", "quantifier": "all heaps, all later assignments", "why_tests_cant": "aliasing over all heaps", "anchors": ["sweep_design/relation.py:Relation._operation", "sweep_design/relation.py:Relation.__init__", "sweep_design/relation.py:Relation.shift"]}
{"id": "C34", "title": "get_data hands out copies", "statement": "The two arrays returned by get_data are new objects: writing into them never changes the relation nor a later get_data.", "quantifier": "all heaps, all writes", "why_tests_cant": "aliasing", "anchors": ["sweep_design/relation.py:Relation.get_data"]}
{"id": "C35", "title": "In-place operators create new objects", "statement": "r += o, r -= o, r *= o, r /= o, r **= o bind r to a new relation equal to r op o; every other name bound to the old relation keeps seeing the old data.", "quantifier": "all heaps, all operands", "why_tests_cant": "aliasing", "anchors": ["sweep_design/relation.py:Relation.__iadd__", "sweep_design/relation.py:Relation.__idiv__", "sweep_design/relation.py:Relation.__isub__", "sweep_design/relation.py:Relation.__imul__", "sweep_design/relation.py:Relation.__ipow__"]}
{"id": "C36", "title": "Signal to spectrum and back is lossless for signals starting at zero", "statement": "For every real signal of n>=2 points whose axis starts at 0 and increases, converting to a spectrum and back onto the same time axis returns exactly the original samples.", "quantifier": "all signals of any length, odd or even", "why_tests_cant": "DFT inversion for all n", "anchors": ["sweep_design/defaults/methods.py:signal2spectrum", "sweep_design/defaults/methods.py:spectrum2signal"]}
{"id": "C37", "title": "Signals with negative times come back rotated", "statement": "For a real signal on an increasing axis with m points before time 0 and at least one point at or after it, converting to a spectrum and back onto the same time axis returns the samples rotated left by 2m positions; so the round trip is the identity iff that rotation fixes the data, e.g. it is not for three distinct samples at times -1,0,1.", "quantifier": "all signals on axes containing negative times", "why_tests_cant": "all n and m", "anchors": ["sweep_design/defaults/methods.py:_calculate_spectrum", "sweep_design/defaults/methods.py:spectrum2signal"]}
{"id": "C38", "title": "Default inverse transform", "statement": "A spectrum computed from a zero-start signal with even n converted back without giving a time axis yields the original samples on an axis with the original start and sample; with odd n>=3 it yields n-1 samples and a sample step n/(n-1) times the original.", "quantifier": "all zero-start signals", "why_tests_cant": "parity dependence for all n", "anchors": ["sweep_design/defaults/methods.py:spectrum2signal"]}
{"id": "C39", "title": "Amplitude and phase determine the spectrum", "statement": "For every spectrum, rebuilding it from get_amp_spectrum and get_phase_spectrum returns the same complex values on the same axis.", "quantifier": "all spectra", "why_tests_cant": "all values, phase unwrapping over all histories of jumps", "anchors": ["sweep_design/spectrum.py:Spectrum.get_spectrum_from_amp_phase", "sweep_design/spectrum.py:Spectrum.get_amp_spectrum", "sweep_design/spectrum.py:Spectrum.get_phase_spectrum"]}
{"id": "C40", "title": "add_phase and sub_phase", "statement": "On equal frequency axes add_phase multiplies each value by the unit phase factor of the other spectrum and leaves amplitudes unchanged, and sub_phase of the same spectrum afterwards restores the original.", "quantifier": "all pairs of spectra on equal axes", "why_tests_cant": "all values", "anchors": ["sweep_design/spectrum.py:Spectrum.add_phase", "sweep_design/spectrum.py:Spectrum.sub_phase"]}
{"id": "C41", "title": "Signal.shift is a circular delay", "statement": "For a real signal of n>=2 points on a zero-start axis with spacing equal to its sample d, shift(m*d) for any integer m keeps the time axis and moves sample i to position (i+m) mod n; samples pushed past the end reappear at the start.", "quantifier": "all signals, all integer m", "why_tests_cant": "DFT shift theorem for all n", "anchors": ["sweep_design/signal.py:Signal.shift"]}
{"id": "C42", "title": "Convolving signals that do not start at zero", "statement": "Signal.shift never changes the time axis, so Signal.convolve/correlate of two signals that share start a, end b and sample succeed only if the size of [-b,b] is 2n-1; for increasing integer-multiple axes with b>0 and a != 0 they raise NotEqualError.", "quantifier": "all such signals", "why_tests_cant": "all starts", "anchors": ["sweep_design/signal.py:Signal.convolve", "sweep_design/signal.py:Signal.shift", "sweep_design/defaults/methods.py:convolve"]}
{"id": "C43", "title": "get_spectrum with an explicit frequency axis or size", "statement": "For a real signal whose axis does not run backwards: get_spectrum(frequency=ArrayAxis) raises NotEqualError for every axis with three or more points; get_spectrum(frequency=k) for an int k>0 succeeds if and only if k//2 equals N//2, for the N>=2 samples of the signal prolonged with zeros to time 0, and otherwise raises NotEqualError; k<=0, and a signal of a single sample at time 0, raise ValueError.", "quantifier": "all signals on axes that do not run backwards, all axes and sizes", "why_tests_cant": "all sizes", "anchors": ["sweep_design/defaults/methods.py:_calculate_spectrum", "sweep_design/signal.py:Signal.get_spectrum"]}
{"id": "C44", "title": "Cached spectra and signals", "statement": "get_spectrum() without frequency returns one and the same object on every call until get_spectrum(frequency) is called; get_spectrum().get_signal() returns the original signal object; the cache is not refreshed when the samples or the axis are edited, and is_start_zero is ignored once a spectrum is cached.", "quantifier": "all histories of get_spectrum/get_signal/edit calls", "why_tests_cant": "history dependence", "anchors": ["sweep_design/signal.py:Signal.get_spectrum", "sweep_design/spectrum.py:Spectrum.get_signal"]}
{"id": "C45", "title": "Reverse filter", "statement": "For percent p>0 and a spectrum that is not identically zero, the reverse filter has amplitude 1/(A_k + max(A)*p/100), is bounded by 100/(p*max(A)), and with phase subtraction its product with the spectrum is real and lies in [0,1) at every frequency. For percents that are not negative there is a filter exactly if no value of the selected part is zero, or percent is positive and the selected part is not silent; otherwise a value is divided by zero.", "quantifier": "all spectra, all p>0; when it exists: all p>=0", "why_tests_cant": "all values", "anchors": ["sweep_design/spectrum.py:Spectrum.get_reverse_filter"]}
{"id": "C46", "title": "Phase spectrum has no jumps", "statement": "The phase returned by get_phase_spectrum is congruent to the argument of each value modulo 2*pi and consecutive phases differ by at most pi.", "quantifier": "all spectra", "why_tests_cant": "accumulated corrections over all lengths", "anchors": ["sweep_design/spectrum.py:Spectrum.get_phase_spectrum"]}
{"id": "C47", "title": "Sweep formula", "statement": "UncalculatedSweep(...)(time, tht0) has, at each time sample, amplitude a_i*sin(theta_i+tht0) where theta is 2*pi times the integral of frequency from the first sample (cumulative trapezoid for array descriptions, the quadrature for callables), theta_0=0, and lives on exactly the requested time axis.", "quantifier": "all time axes, frequency and amplitude descriptions, phases", "why_tests_cant": "all inputs", "anchors": ["sweep_design/uncalculated_sweep.py:UncalculatedSweep.__call__", "sweep_design/uncalculated_sweep.py:UncalculatedSweep._array_tht"]}
{"id": "C48", "title": "The envelope bounds the sweep", "statement": "At every sample the absolute value of the calculated sweep is at most the absolute value of its amplitude_time, in particular at most 1 if no amplitude description is given; its first sample is amplitude*sin(tht0), i.e. 0 for the default phase.", "quantifier": "all calls", "why_tests_cant": "all inputs", "anchors": ["sweep_design/uncalculated_sweep.py:UncalculatedSweep.__call__"]}
{"id": "C49", "title": "Which time axis a sweep uses", "statement": "A call uses its own time argument if given, otherwise the constructor's time; without either it raises BadInputError, even when frequency or amplitude are relations that carry an axis; an array description without a constructor time raises BadInputError at construction.", "quantifier": "all combinations of inputs", "why_tests_cant": "exhaustive over input kinds", "anchors": ["sweep_design/uncalculated_sweep.py:UncalculatedSweep.__init__", "sweep_design/defaults/sweep_methods.py:get_info_from_ftat", "sweep_design/defaults/sweep_methods.py:_extract_x_t"]}
{"id": "C50", "title": "Array descriptions are reproduced on zero-start axes", "statement": "A frequency or amplitude array with one value per time sample is reproduced exactly on the constructor's time axis if that axis starts at 0; an array of another length is linearly stretched over the axis hitting its first and last value; on an axis that does not start at 0 the values are misplaced (e.g. time 1,2,3).", "quantifier": "all arrays and axes", "why_tests_cant": "all grids", "anchors": ["sweep_design/defaults/sweep_methods.py:InterpolateArray.__call__", "sweep_design/defaults/sweep_methods.py:_extract_x_t"]}
{"id": "C51", "title": "Linear sweep closed form", "statement": "get_linear_sweep on an axis 0..T with spacing equal to its sample equals a(t)*sin(2*pi*(f_start*t+(f_end-f_start)*t^2/(2T))) at every sample, and its frequency_time is f_start+(f_end-f_start)*t/T.", "quantifier": "all axes, frequencies and tapers", "why_tests_cant": "trapezoid exactness for all n", "anchors": ["sweep_design/prepared_sweeps/linear_sweep.py:get_linear_sweep", "sweep_design/utility_functions/f_t.py:f_t_linear_array"]}
{"id": "C52", "title": "Tukey envelope", "statement": "tukey_a_t returns one coefficient in [0,1] per time sample; without a taper all are 1; 'left' leaves the second half at 1, 'right' is the mirror image of 'left', 'both' is symmetric, and for a positive taper on at least two samples starting at 0 the tapered ends are 0.", "quantifier": "all increasing time arrays, taper lengths and locations", "why_tests_cant": "all lengths and tapers", "anchors": ["sweep_design/utility_functions/a_t.py:tukey_a_t"]}
{"id": "C53", "title": "Shuffle sweep frequencies stay in the band", "statement": "Without rounding of the frequencies and for every outcome of the random shuffle, the segment frequencies used by get_shuffle are a rearrangement of the evenly spaced grid from f_start to f_end, and every frequency on the produced description and of the produced sweep lies between f_start and f_end; with rounding (round_number) they can leave the band (witness). A segment not longer than the sample raises SegmentSmallerThenDtError.", "quantifier": "all permutations, all frequencies, segment lengths, tapers and time axes", "why_tests_cant": "all random outcomes", "anchors": ["sweep_design/prepared_sweeps/pseudorandom_shuffle.py:get_shuffle"]}
{"id": "C54", "title": "A-priori sweeps have the energy of the a-priori signal", "statement": "When is_normalize is true and the un-normalised sweep is not silent, the returned sweep's get_norm equals the a-priori signal's get_norm. On a time axis that runs backwards with a positive sample the energy is negative, and normalisation raises ValueError unless the sweep is silent.", "quantifier": "all a-priori signals and sweeps", "why_tests_cant": "all inputs", "anchors": ["sweep_design/uncalculated_sweep.py:ApriorUncalculatedSweep.__call__"]}
{"id": "C55", "title": "Sweep arithmetic drops the sweep description", "statement": "Arithmetic on a Sweep returns a Sweep whose frequency_time and amplitude_time are re-derived from the samples and whose a_prior_signal is None; so a normalised a-priori sweep does not carry the frequency_time it was built from, while with is_normalize=False it does.", "quantifier": "all sweeps and operands", "why_tests_cant": "class dispatch through inherited operators", "anchors": ["sweep_design/sweep.py:Sweep.__init__", "sweep_design/uncalculated_sweep.py:ApriorUncalculatedSweep.__call__"]}
{"id": "C56", "title": "A calculated sweep shares its axis with its description", "statement": "The sweep returned by a call, its frequency_time and amplitude_time and the generator's stored time are one axis object: an assignment to the start/end/sample of any of them changes all of them and the time axis of every later call without a time argument.", "quantifier": "all heaps", "why_tests_cant": "aliasing", "anchors": ["sweep_design/uncalculated_sweep.py:UncalculatedSweep.__call__", "sweep_design/defaults/sweep_methods.py:get_f_t"]}
{"id": "C57", "title": "Frequency-to-time laws", "statement": "simple_freq2time and proportional_freq2time return time, frequency and envelope arrays of equal length; time starts at 0, never decreases on increasing frequencies, and strictly increases where neighbouring amplitudes are not both zero; the envelope is constant.", "quantifier": "all spectra on increasing axes", "why_tests_cant": "all lengths and values", "anchors": ["sweep_design/defaults/sweep_methods.py:simple_freq2time", "sweep_design/utility_functions/ftat_functions.py:proportional_freq2time"]}
{"id": "C58", "title": "Dwell law", "statement": "dwell(f_start,f_end,fc) returns arrays of equal length; time starts at 0 and never decreases; for positive frequencies the envelope is (f/f_0)^2 up to the cutoff and constant after it; if the first frequency is 0 it counts as the second one (envelope 1, then (f/f_1)^2); with 0 at a later place at or below the cutoff the durations are divisions by zero; if at most one selected frequency is at or below the cutoff (in particular if fc is omitted) the call raises IndexError.", "quantifier": "all spectra on increasing axes, all cutoffs", "why_tests_cant": "all lengths and values", "anchors": ["sweep_design/utility_functions/ftat_functions.py:dwell"]}
{"id": "C59", "title": "Zinger code list", "statement": "get_code_zinger(code, p) has length p*len(code) and element i equals code[i mod len(code)]; non-positive p gives the empty list.", "quantifier": "all codes and periods", "why_tests_cant": "all lengths", "anchors": ["sweep_design/prepared_sweeps/code_zinger.py:get_code_zinger"]}
{"id": "C60", "title": "Zinger code relation", "statement": "get_code_zinger_relation(r, p) returns r itself for p<=1; for p>=2 it spans p periods of length r.end and its first period carries r twice (value 2*y), later periods carry it once, with neighbouring periods summed at the shared end points.", "quantifier": "all relations starting at 0 on whole-multiple axes, all p", "why_tests_cant": "induction over periods", "anchors": ["sweep_design/prepared_sweeps/code_zinger.py:get_code_zinger_relation"]}
{"id": "C61", "title": "m-sequence lengths", "statement": "get_m_sequence_code(L) without is_full returns min(L-1, 2^k-1) values with k=ceil(log2(L-1)), never L values; get_relation_m_sequence on an axis of n>=4 points (no start sequence) succeeds if and only if n is neither 2^k nor 2^k+1, otherwise raises NotEqualError; an all-zero start sequence passed by the caller is modified in place.", "quantifier": "all lengths L and axis sizes within the supported register size", "why_tests_cant": "all sizes, all random start sequences", "anchors": ["sweep_design/prepared_sweeps/code_m_sequence.py:get_m_sequence_code", "sweep_design/prepared_sweeps/code_m_sequence.py:get_relation_m_sequence"]}
{"id": "C62", "title": "Sweep from code segments", "statement": "get_code_sweep_segments with a plain Relation base places the k-th copy of the base (k>=1) at k*end+sample scaled by code[k] and sums where copies meet; with a Signal or Sweep base the result keeps the base's own time axis whatever the code length.", "quantifier": "all bases and codes", "why_tests_cant": "induction over code length; class dispatch", "anchors": ["sweep_design/prepared_sweeps/sweep_from_code.py:get_code_sweep_segments"]}
{"id": "C63", "title": "Soft clipping", "statement": "soft_clip never changes the first column nor the sign of the second; rows with |first| <= limit*percent are unchanged; with coefficient 1 the scaled displacement never exceeds the limit; but for |first| strictly between limit*percent and limit the factor is larger than 1, i.e. the row is amplified.", "quantifier": "all rows, limits, percents", "why_tests_cant": "inequality over a continuum", "anchors": ["sweep_design/utility_functions/source_sweep_correction.py:soft_clip"]}
{"id": "C64", "title": "Source correction loop is bounded", "statement": "With limit_iteration=k the correction loop runs at most max(1,k) times whatever the decomposition returns, it stops early only when every displacement is strictly inside the limits, and the returned force lives on [start+3*sample, end-sample] with four points less.", "quantifier": "all decompositions, signals, limits", "why_tests_cant": "all schedules of loop exits", "anchors": ["sweep_design/utility_functions/source_sweep_correction.py:get_correction_for_source"]}
{"id": "C65", "title": "Sweep correction shape", "statement": "correct_sweep of a signal on a whole-multiple axis with n>=6 points returns a signal with n-4 points on [start+3*sample, end-sample] with the same sample, for every decomposition that keeps the length, with and without the start window.", "quantifier": "all signals, all decompositions", "why_tests_cant": "all lengths", "anchors": ["sweep_design/utility_functions/sweep_correction.py:correct_sweep"]}
{"id": "C66", "title": "Config methods are captured at construction", "statement": "A relation uses the math, interpolation, integration and differentiation methods, and a signal or spectrum the transform, that were in Config when it was constructed, whatever is assigned to Config later, while the common-axis, correlation and convolution methods are looked up in Config at each call. This holds for sweeps as well; the methods that derive the descriptions of a sweep are looked up in SweepConfig whenever a sweep is made, so also when an operation on an older sweep returns a new one.", "quantifier": "all histories of Config assignments and operations", "why_tests_cant": "history dependence", "anchors": ["sweep_design/relation.py:Relation.__init__", "sweep_design/config/base_config.py:Config", "sweep_design/config/sweep_config.py:SweepConfig", "sweep_design/sweep.py:Sweep"]}
{"id": "C67", "title": "Spectrogram axes versus image", "statement": "A Sweep's spectrogram image has as many columns as the time axis has points and as many rows as the frequency axis only if the transform returned at least two time and two frequency entries; with a single time segment the image has one column but the axis two points.", "quantifier": "all spectrogram shapes", "why_tests_cant": "all sizes", "anchors": ["sweep_design/sweep.py:_get_spectrogram"]}
{"id": "C68", "title": "Linear frequency laws", "statement": "f_t_linear_function and f_t_linear_array are affine in time with slope (f_end-f_start)/(t_end-t_start); they start at f_start and end at f_end if and only if the time starts at 0 (or the frequencies are equal); equal start and end time raises or is non-finite.", "quantifier": "all parameters", "why_tests_cant": "all values", "anchors": ["sweep_design/utility_functions/f_t.py:f_t_linear_function", "sweep_design/utility_functions/f_t.py:f_t_linear_array"]}
{"id": "C69", "title": "The spectrum is the Fourier sum over the signal's own times", "statement": "For a real signal of at least two samples on an axis whose start and end are whole multiples of its positive sample s, get_spectrum has the frequencies f_k=k/(N s), k=0..N//2, with N the number of points of the axis prolonged to contain 0, and the value at f_k is the sum of y_j*exp(-2*pi*i*f_k*t_j) over the signal's true times t_j.", "quantifier": "all signals on whole-multiple axes before, around and after time zero", "why_tests_cant": "The zero padding and the reordering of negative times cancel only for every length, offset and frequency together; examples check a few offsets.", "anchors": ["sweep_design/defaults/methods.py:_calculate_spectrum", "sweep_design/defaults/methods.py:signal2spectrum", "sweep_design/signal.py:Signal.get_spectrum"]}
{"id": "C70", "title": "get_spectrum is linear", "statement": "For two real signals on the same increasing axis and any real c, the spectrum of c*r1+r2 lives on the same frequency axis as the spectra of r1 and r2 and its values are c times those of r1 plus those of r2.", "quantifier": "all pairs of signals on one axis, all scalars", "why_tests_cant": "An identity over all real signals and lengths.", "anchors": ["sweep_design/defaults/methods.py:_calculate_spectrum", "sweep_design/defaults/methods.py:signal2spectrum"]}
{"id": "C71", "title": "Energy of the spectrum", "statement": "For a real signal of at least two samples on an increasing axis, N times the sum of squared samples equals the sum of squared spectral amplitudes over the full circle of N frequencies (frequency k>N/2 standing for N-k), N being the number of points of the axis prolonged to contain 0.", "quantifier": "all signals, odd and even lengths", "why_tests_cant": "An identity over all real signals; the odd/even treatment of the highest frequency is easily wrong in one case only.", "anchors": ["sweep_design/defaults/methods.py:_calculate_spectrum", "sweep_design/defaults/methods.py:signal2spectrum"]}
{"id": "C72", "title": "Start window of correct_sweep and the rounded step", "statement": "With a start window correct_sweep builds the window's axis from the time array, whose step is rounded to a whole number or the reciprocal of one: for samples that are such numbers the result has the shape of C65; if rounding changes the number of points the call raises NotEqualError for every signal and decomposition; if the rounded step is smaller than the sample the result has the rounded step as its sample.", "quantifier": "all signals on whole-multiple axes with n>=5 points, all window lengths, all length-preserving decompositions", "why_tests_cant": "depends on the number-theoretic form of the sample", "anchors": ["sweep_design/utility_functions/sweep_correction.py:correct_sweep", "sweep_design/axis.py:get_array_axis_from_array"]}
{"id": "C73", "title": "Objects behave like their current values", "statement": "Calling select_data, exp, diff, integrate, interpolate_extrapolate, shift, an arithmetic operator, get_norm, max, min, len, item access, equalize, convolve or correlate on Relation objects (and, where the class does not transform, on Signal, Sweep and Spectrum objects) returns an object of the same class whose axis fields and y values are the function of the operands' current axis fields and y values that the value-level properties describe, or raises the same exception. Neither earlier calls, filled caches, earlier assignments to start/end/sample, nor reassigned Config entries that name the same methods enter the result; for operands whose get_data works it does not matter either whether two operands share one axis object or have two equal ones.", "quantifier": "All object graphs reachable by any sequence of calls of the package, assignments to axis fields and Config and in-place writes into y arrays; all classes, for Sweep provided that the methods deriving the descriptions of a new sweep succeed; all arguments.", "why_tests_cant": "Caching and sharing bugs show only after particular sequences of reads, copies and assignments; a test fixes one sequence, while the statement compares all pairs of histories that end in the same values.", "anchors": ["sweep_design/axis.py:ArrayAxis.array", "sweep_design/axis.py:ArrayAxis.copy", "sweep_design/relation.py:Relation.equalize", "sweep_design/relation.py:Relation._operation", "sweep_design/relation.py:Relation.interpolate_extrapolate", "sweep_design/relation.py:Relation.convolve", "sweep_design/defaults/methods.py:integrate", "sweep_design/defaults/methods.py:differentiate", "sweep_design/relation.py:Relation.max", "sweep_design/relation.py:Relation.min"]}
{"id": "C74", "title": "Spectrum of a convolution and of a correlation", "statement": "For two signals that start at time 0, have the same sample s and end at k1*s and k2*s, Signal.convolve and Signal.correlate return signals from -E*s to E*s with E = max(k1, k2). The spectrum of the correlation is the Fourier sum of the first signal times the conjugate of that of the second; for a signal with itself it is real and not negative. The spectrum of the convolution is the product of the two Fourier sums times exp(2*pi*i*f*E*s): the convolution is placed E*s earlier than the convolution of the two signals.", "quantifier": "all samples s > 0, all k1, k2 >= 1, all values, all frequencies of the result", "why_tests_cant": "an identity between two transforms at every frequency of every pair of signals; tests with tolerances on a few signals do not notice a phase factor", "anchors": ["sweep_design/signal.py:Signal.convolve", "sweep_design/signal.py:Signal.correlate", "sweep_design/signal.py:Signal.get_spectrum", "sweep_design/defaults/methods.py:convolve", "sweep_design/defaults/methods.py:correlate", "sweep_design/defaults/methods.py:signal2spectrum"]}
{"id": "C75", "title": "Envelope and instantaneous frequency derived from the samples", "statement": "get_a_t returns a relation on the sweep's axis whose values are at least the moduli of the samples; get_f_t returns a relation on the same axis that starts with 0 and whose values do not exceed 1/(2*|sample|) in modulus. Multiplying the samples by c multiplies the envelope by |c| and, for c > 0, leaves the frequencies as they are. For a cosine of amplitude A > 0 with a whole number m of periods in its n samples, 0 < m < n/2, the envelope is A everywhere and the frequency m/(n*sample) everywhere after the first value. A Sweep constructed without descriptions, with these default methods, has such descriptions.", "quantifier": "all relations whose get_data works, all n, all amplitudes and phases", "why_tests_cant": "an inequality at every sample of every signal, and exact values for a family of tones", "anchors": ["sweep_design/defaults/sweep_methods.py:get_a_t", "sweep_design/defaults/sweep_methods.py:get_f_t", "sweep_design/sweep.py:Sweep.__init__"]}
{"id": "C76", "title": "The dwell sweep", "statement": "get_dwell_sweep(time, f_start, f_central, f_end, time_tapper, data) returns a sweep on the time axis whose samples are those of the normalised a-priori sweep with the dwell law multiplied by the Tukey taper of that time. Its frequency and envelope are derived from the tapered samples and it has no a-priori signal. On an increasing axis that the taper reaches it starts and ends with 0, is nowhere larger in modulus than the untapered sweep and equals it where a sample and its mirror sample lie after the taper; its norm is at most the norm of the a-priori signal. Without a-priori data (the default) the call raises BadInputError, without a central frequency IndexError.", "quantifier": "all time axes and arrays, all optional frequencies and tapers, all a-priori data, all configured sweep methods", "why_tests_cant": "bounds at every sample and a bound on the norm for every spectrum and axis; the project has no test of this function", "anchors": ["sweep_design/prepared_sweeps/dwell_sweep.py:get_dwell_sweep", "sweep_design/utility_functions/a_t.py:tukey_a_t", "sweep_design/uncalculated_sweep.py:ApriorUncalculatedSweep.__call__"]}
{"id": "C77", "title": "Convolution of a code with a base sweep", "statement": "For a code of M >= 2 numbers and a base sweep from 0 to k*s with step s, get_convolution_sweep_and_code returns a sweep from -E*s to min(M, E)*s, E = max(M-1, k), whose n samples are the values of the convolution of code and base, the i-th of them at position (i + k - 2E) mod n: the result is rotated. A code of one number raises ValueError. Signal.shift by m samples on an axis with c negative times and containing 0 keeps the axis and moves the samples circularly by m - 2c.", "quantifier": "all codes of at least two numbers, all s > 0, all k >= 1, all base values; all signals on an axis containing 0 and all m", "why_tests_cant": "an exact position for every sample of every code and base length; a test on one code length cannot tell a rotation from a shift", "anchors": ["sweep_design/prepared_sweeps/sweep_from_code.py:get_convolution_sweep_and_code", "sweep_design/signal.py:Signal.shift", "sweep_design/signal.py:Signal.convolve"]}
{"id": "C78", "title": "Signal of any spectrum without a time axis", "statement": "Spectrum.get_signal() of m >= 2 values on an increasing frequency axis, with a start time that is not negative, returns 2(m-1) samples with step 1/(2(f_last - f_first)) beginning at the start time. The samples depend on the values alone, so moving a spectrum to other frequencies does not change its signal. A spectrum of at most one value raises ValueError, one with equal ends of the axis (given as Python numbers) ZeroDivisionError.", "quantifier": "all spectra with at least two values, all increasing axes, all start times >= 0", "why_tests_cant": "that the first frequency is never used holds for every shift of every spectrum", "anchors": ["sweep_design/spectrum.py:Spectrum.get_signal", "sweep_design/defaults/methods.py:spectrum2signal"]}
{"id": "C79", "title": "A spectrum and the spectrum of its signal", "statement": "Take the signal of a spectrum for a time axis that starts at 0 with n >= 2 points, and the spectrum of that signal: it has the frequencies of n samples, and the values of the original from its first value on, cut or filled with zeros to the new length, except that the imaginary part at frequency 0 and (n even) at the last frequency is lost. So the values come back unchanged exactly when the lengths agree and these end values are real. Without a time argument the same holds with n = 2*(number of values - 1), and the new frequency axis starts at 0 whatever the original did.", "quantifier": "all spectra, all zero-start time axes", "why_tests_cant": "universal over complex spectra; tests round-trip real signals only", "anchors": ["sweep_design/spectrum.py:Spectrum.get_signal", "sweep_design/signal.py:Signal.get_spectrum", "sweep_design/defaults/methods.py:spectrum2signal"]}
{"id": "C80", "title": "The reverse signal compresses the signal to a pulse", "statement": "For a signal that starts at 0 the spectrum of get_reverse_signal is the reverse filter of its spectrum, counted from frequency 0. With noise level percent > 0, no band and a signal that is not silent, the circular convolution of the signal with its reverse signal is a symmetric pulse whose greatest absolute value is at 0 and lies strictly between 0 and 1; with percent = 0 and a spectrum without zeros it is exactly the unit pulse. With a band (frequency_start above 0) the selected part is moved down to frequency 0, shown by a witness.", "quantifier": "all signals on increasing zero-start axes, all noise levels", "why_tests_cant": "universal over signals; deconvolution quality is judged by eye in the examples", "anchors": ["sweep_design/signal.py:Signal.get_reverse_signal", "sweep_design/spectrum.py:Spectrum.get_reverse_filter"]}
{"id": "C81", "title": "Adding and subtracting the phase of a signal", "statement": "For two signals on one time axis that starts at 0: Signal.add_phase multiplies the spectrum at every frequency by the unit factor of the other spectrum and sub_phase divides by it, nothing is lost at the first and the last frequency, the energy of the signal does not change, and subtracting what was added (or adding what was subtracted) returns the signal exactly. Subtracting its own phase from a signal gives a zero-phase signal: symmetric about time 0 counted around the axis, with the greatest absolute value at 0. With a spectrum that is not real at frequency 0 the signal can be lost (witness).", "quantifier": "all pairs of signals on one increasing zero-start axis", "why_tests_cant": "universal over signals, exact inverse and energy", "anchors": ["sweep_design/signal.py:Signal.add_phase", "sweep_design/signal.py:Signal.sub_phase"]}
{"id": "C82", "title": "Empirical mode decomposition returns signals of their own", "statement": "If the decomposition returns arrays as long as the values of the data, get_IMFs_emd and get_IMFs_ceemdan return one Signal per array, in order, on the positions of the data and with the values of the array; no two of the signals, and no signal and an older relation, share an axis or a y array, so editing one of them leaves the others and the data alone. An array of another length raises NotEqualError with both sizes. The data is never changed. If the arrays add up to the values of the data, the sum of the signals is the data.", "quantifier": "all decompositions, all relations, all sequences of later edits and calls", "why_tests_cant": "the decomposition is random (CEEMDAN) and a library; sharing shows only after later edits", "anchors": ["sweep_design/utility_functions/emd_analyze.py:get_IMFs_emd", "sweep_design/utility_functions/emd_analyze.py:get_IMFs_ceemdan"]}
{"id": "C83", "title": "Copies of an axis share the array that was already read", "statement": "ArrayAxis.copy is shallow: once array of an axis has been read, the copy returns the same ndarray object, so numbers written into it in place are seen through the axis, all its copies, and all relations made from them (a relation constructed from another one, the result of an operation). A copy made before array was read has an ndarray of its own, and assigning start, end or sample of one of the axes ends the sharing for it: its array is computed anew.", "quantifier": "all heaps, axes and writes", "why_tests_cant": "aliasing through a cache depends on whether a property was read before the copy", "anchors": ["sweep_design/axis.py:ArrayAxis.copy", "sweep_design/axis.py:ArrayAxis.array"]}
{"id": "C84", "title": "Transforms of objects compute from the current values", "statement": "Calls on Signal, Sweep and Spectrum objects (get_spectrum, get_signal, get_amp_spectrum, get_phase_spectrum, get_reverse_filter, get_reverse_signal, add_phase, sub_phase with a spectrum, Signal.shift, get_spectrum_from_amp_phase, Signal.convolve and Signal.correlate) return an object with exactly the class, axis and values that the transform formulas give for the operands' current axis fields and samples, or raise the same exception: shared axis objects, previously filled axis caches, equal or identical operands and captured Config methods make no difference. A cached counterpart is used only by get_spectrum() and get_signal() without arguments; the statement holds as soon as that cache is empty or belongs to the current samples, and get_spectrum() itself leaves such a cache.", "quantifier": "for all reachable or unreachable stores with coherent axis caches, all signal, sweep and spectrum objects in them, all arguments; for sweeps provided that the methods deriving the descriptions of a new sweep succeed", "why_tests_cant": "The number of ways objects can share axes and hold caches is unbounded, and the claim compares every result exactly with the formula; tests see a few object graphs with floats.", "anchors": ["sweep_design/signal.py:Signal.get_spectrum", "sweep_design/signal.py:Signal.shift", "sweep_design/signal.py:Signal.get_reverse_signal", "sweep_design/signal.py:Signal.convolve", "sweep_design/signal.py:Signal.correlate", "sweep_design/spectrum.py:Spectrum.get_signal", "sweep_design/spectrum.py:Spectrum.get_reverse_filter", "sweep_design/spectrum.py:Spectrum.get_spectrum_from_amp_phase"]}
{"id": "C85", "title": "Which objects a call may touch", "statement": "A call leaves every existing relation, signal, spectrum and sweep object exactly as it is (class, axis object, y array, cached counterpart, captured methods, sweep attributes), except the objects whose counterpart it asks for: the object itself for get_spectrum, get_signal, get_amp_spectrum, get_phase_spectrum, get_reverse_signal, add_phase and sub_phase of a signal and shift of a signal; the right operand of + - * / ** between a signal and a spectrum (never with a relation, never the left operand, never for reflected operators); a signal given to add_phase or sub_phase; for convolve and correlate the operands that are signals or spectra and the signals cached in them.", "quantifier": "for all stores, all objects in them, all calls, all configured methods that meet the stated contract (the default ones do), and all histories", "why_tests_cant": "The claim is about every object not involved in a call, in every object graph; tests compare a few attributes of the operands.", "anchors": ["sweep_design/signal.py:Signal.get_spectrum", "sweep_design/spectrum.py:Spectrum.get_signal", "sweep_design/signal.py:_inp2signal_operation", "sweep_design/spectrum.py:_input2spectrum_operation", "sweep_design/signal.py:Signal.convolve"]}
{"id": "C86", "title": "Signals and spectra as operands of each other", "statement": "signal op spectrum is exactly signal op spectrum.get_signal() and spectrum op signal is exactly spectrum op signal.get_spectrum() for op in + - * / **: the same returned object, the same exception and the same effects on every object. Combinations with relations, of two signals or of two spectra, and reflected operators perform no transform. A spectrum with an operand that is neither an object nor a number raises ConvertingError and changes nothing. spectrum.add_phase(signal) and sub_phase(signal) are the calls with signal.get_spectrum().", "quantifier": "for all stores, all operands and all configured methods", "why_tests_cant": "Equality of two runs including all side effects, over every object graph and every set of configured methods.", "anchors": ["sweep_design/signal.py:Signal.__add__", "sweep_design/signal.py:_inp2signal_operation", "sweep_design/spectrum.py:Spectrum.__add__", "sweep_design/spectrum.py:_input2spectrum_operation", "sweep_design/spectrum.py:Spectrum.add_phase", "sweep_design/signal.py:Signal.__sub__", "sweep_design/signal.py:Signal.__mul__", "sweep_design/signal.py:Signal.__truediv__", "sweep_design/signal.py:Signal.__pow__", "sweep_design/spectrum.py:Spectrum.__sub__", "sweep_design/spectrum.py:Spectrum.__mul__", "sweep_design/spectrum.py:Spectrum.__truediv__", "sweep_design/spectrum.py:Spectrum.__pow__", "sweep_design/spectrum.py:Spectrum.sub_phase"]}
{"id": "C87", "title": "Cached counterparts are of the other kind", "statement": "In every session that calls the methods of Signal on signals and those of Spectrum on spectra, what is cached in a signal is an existing Spectrum and what is cached in a spectrum is an existing Signal or Sweep, after any history of calls and edits, copies by equalize included. Hence get_spectrum always returns a spectrum and get_signal a signal, and the mixed operators behave as in C86.", "quantifier": "for all histories of calls and edits, starting from an empty store or any store with the invariant, and all configured methods that meet the stated contract (the default ones do)", "why_tests_cant": "An invariant over unbounded histories in which caches are filled, replaced by explicit arguments, shared and deep-copied.", "anchors": ["sweep_design/signal.py:Signal.get_spectrum", "sweep_design/spectrum.py:Spectrum.get_signal", "sweep_design/signal.py:Signal.add_phase", "sweep_design/relation.py:Relation.equalize"]}
{"id": "C88", "title": "A relation whose axis no longer fits its samples", "statement": "When an assignment to the axis has changed the number of points to n while there are m samples, m different from n: get_data, exp, shift and get_norm raise NotEqualError(n, m); select_data and slicing raise IndexError; interpolate_extrapolate raises ValueError on every axis; operators with a number, and equalize, operators, convolve and correlate with a relation on another axis object return nothing. On one axis object (or with an array) an operator returns only when numpy broadcasts the one sample of the relation over n values. integrate and diff raise NotEqualError if (end - start) / sample is at least 1 and not half way between two integers. len, Relation(r), equalize on one axis object and r[v] do not notice. get_spectrum raises IndexError when the time axis reaches 0, but a signal that starts later with too few samples silently gets zeros; get_signal never looks at the number of points, get_amp_spectrum and get_phase_spectrum raise NotEqualError.", "quantifier": "for all relations, signals and spectra with n axis points and m samples, m different from n, all arguments, and all stores with coherent caches", "why_tests_cant": "The state arises only from in-place edits of shared axes; the claim is that each call in every such state either raises or is listed as silent.", "anchors": ["sweep_design/relation.py:Relation.get_data", "sweep_design/relation.py:Relation.select_data", "sweep_design/relation.py:Relation.equalize", "sweep_design/defaults/methods.py:signal2spectrum", "sweep_design/axis.py:ArrayAxis"]}
{"id": "C89", "title": "Sweep and generator objects compute the sweep formulas", "statement": "With the default methods, the objects returned by Sweep(time, amplitude[, frequency_time, amplitude_time]), by operators on a sweep, by calling an UncalculatedSweep and by calling an ApriorUncalculatedSweep have exactly the samples, frequency_time, amplitude_time and a_prior_signal that the sweep formulas give for the current values of the arguments, or the same exception is raised; get_norm of a sweep likewise. Building a generator stores what the formulas extract from the time and the descriptions, calling it does not change it, and the arrays and relations it was given are copied: writing into them later does not change what a call returns.", "quantifier": "for all stores with coherent axis caches, all time and description arguments, all initial phases; operators with another object provided that the methods deriving the descriptions of a new sweep succeed; for the copies all later sequences of calls, writes into y arrays that existed before and assignments to axes other than the one passed as time", "why_tests_cant": "Whether a call mixes up the two descriptions, forgets to copy an array, or keeps a stale axis depends on which objects are shared and what was done to them in between; tests compare a few constructed generators.", "anchors": ["sweep_design/sweep.py:Sweep.__init__", "sweep_design/uncalculated_sweep.py:UncalculatedSweep.__init__", "sweep_design/uncalculated_sweep.py:UncalculatedSweep.__call__", "sweep_design/uncalculated_sweep.py:ApriorUncalculatedSweep.__call__", "sweep_design/defaults/sweep_methods.py:InterpolateArray", "sweep_design/defaults/methods.py:integrate_function"]}
{"id": "C90", "title": "The default spectrogram is the windowed power density of the sweep", "statement": "Under the default configuration, a sweep of n samples with step dt has a spectrogram image computed from segments of m = min(n, 256) samples that overlap by m // 8: one row per frequency 0 .. m // 2 with the highest first, one column per segment that fits into the samples, and entry = one-sided power density (window with an eighth tapered at each side, mean removed) of the segment. So entries are never negative; adding a constant to the samples, or moving the time axis, leaves the spectrogram unchanged; multiplying by c multiplies the image by c squared; a constant sweep has a zero image; the entries of a column times the frequency step add up to the weighted mean square deviation of the segment. The time axis starts at m dt / 2 whatever the start of the sweep, the frequency axis at 0; their steps are rounded, so with dt = 0.001 and n >= 256 the image has 129 rows and the frequency axis 126 points.", "quantifier": "every sweep the constructor returns under the default SweepConfig", "why_tests_cant": "a test compares a few images; the formula, the invariances and the energy identity are claims about all samples", "anchors": ["sweep_design/defaults/sweep_methods.py:get_spectrogram", "sweep_design/sweep.py:_get_spectrogram"]}
{"id": "C91", "title": "Sweeps of the default configuration exist", "statement": "Under the default configuration the Sweep constructor succeeds for whatever makes a relation with as many samples as axis points and a positive step, of any length; an arithmetic operator on a sweep succeeds whenever the operator on the underlying relations does and the result has a positive step; a generator with frequencies and amplitudes given as arrays, and get_linear_sweep with any taper, return a sweep on an axis that starts at zero. With a negative step the constructor may raise ZeroDivisionError.", "quantifier": "all axes, samples, descriptions, operators and numbers", "why_tests_cant": "short lengths (one segment, one frequency) and rounding of the spectrogram axes are boundary cases in infinitely many combinations", "anchors": ["sweep_design/sweep.py:Sweep.__init__", "sweep_design/sweep.py:_get_spectrogram", "sweep_design/uncalculated_sweep.py:UncalculatedSweep.__call__", "sweep_design/prepared_sweeps/linear_sweep.py:get_linear_sweep"]}
{"id": "C92", "title": "Axes in double precision", "statement": "In double precision an axis whose end is within a quarter of a step of start + k * sample has k + 1 points (k up to 2^49), as in exact arithmetic. Its last point is end, its first point start, every point is within 8 u M of its exact position (u = 2^-53, M a bound for |start| and |end|), and the points are strictly increasing if the spacing exceeds 16 u M. If spacing and points are representable, the points are exact.", "quantifier": "all axes; all roundings with relative error at most u, in particular double precision without overflow", "why_tests_cant": "how rounding errors add up for all starts, steps and lengths cannot be enumerated", "anchors": ["sweep_design/axis.py:ArrayAxis.array", "sweep_design/axis.py:ArrayAxis.size"]}
{"id": "C93", "title": "The step found in a float array", "statement": "get_array_axis_from_array with rounding on an array of doubles that deviate by at most 2^-37 from a, a + 1/N, a + 2/N, ... with N from 2 to 65536 and up to 2^40 positions gives an axis whose sample is the double nearest to 1/N, untouched by the noise, and with as many points as there are positions, so that Relation(x, y) accepts the array. For a whole step D the sample is D. Outside such bounds this fails: twelve times a microsecond apart in seconds since 1970 give the step 2^-20 and thirteen points.", "quantifier": "all arrays within the stated noise; general bounds for every rounding", "why_tests_cant": "whether noise can tip the rounded reciprocal depends on the worst case over all arrays", "anchors": ["sweep_design/axis.py:get_array_axis_from_array", "sweep_design/axis.py:get_actual_sample", "sweep_design/relation.py:Relation.__init__"]}
{"id": "C94", "title": "The sample at time zero in double precision", "statement": "When a spectrum is computed, samples before the one nearest to time zero always count as negative times and samples after it as positive times. That sample itself counts as negative if its rounded time is below 0. On the axis from -0.1 to 0.5 in steps of 0.1 this happens: its position is -2^-56. Then every value of the spectrum of n samples is multiplied by exp(2 pi i k / n), as if the signal stood one sample away.", "quantifier": "all axes with a point nearer to zero than a step minus 8 u M, all samples", "why_tests_cant": "the effect depends on the last bit of one position and has the size of a whole sample", "anchors": ["sweep_design/defaults/methods.py:_calculate_spectrum", "sweep_design/defaults/methods.py:signal2spectrum"]}
{"id": "C95", "title": "Selecting a window in double precision", "statement": "select_data(lo, hi) on a relation whose step is at least 128 u M returns the samples between the points nearest to lo and hi with the sample unchanged and never raises because of rounding; only the samples at the two bounds depend on rounding, and not if the bound is further than 8 u M from their exact position. Without bounds it returns all samples. On the axis 0, 0.1, ..., 1 select_data(0, 0.3) leaves out the sample at 0.3.", "quantifier": "all relations resolved in this sense, all bounds", "why_tests_cant": "which samples sit on the wrong side of a bound depends on the last bits of all positions", "anchors": ["sweep_design/relation.py:Relation.select_data"]}
{"id": "C96", "title": "Sizes survive rounding", "statement": "In double precision, on a relation of n + 1 samples whose step is at least 128 u M, integrate and diff return relations of n samples, shift by a (with 32 u |a| at most the step) a relation of n + 1 samples, correlate and convolve of two such relations on a common axis starting at zero 2 n + 1 samples, and spectrum2signal of a spectrum puts N amplitudes on a time axis of N points: none of them raises NotEqualError because of rounding. Shifting 0, 0.1, ..., 1 by 2^54 does.", "quantifier": "all relations resolved in this sense; N up to 1/(16 u), start times t with 16 u |t| at most the step", "why_tests_cant": "two independently rounded computations of a size must agree for all axes", "anchors": ["sweep_design/defaults/methods.py:integrate", "sweep_design/defaults/methods.py:differentiate", "sweep_design/defaults/methods.py:correlate", "sweep_design/defaults/methods.py:convolve", "sweep_design/defaults/methods.py:spectrum2signal", "sweep_design/relation.py:Relation.shift"]}
{"id": "C97", "title": "m-sequence codes are maximal length sequences", "statement": "get_m_sequence_code(L, is_full=True) with k = ceil(log2(L-1)) from 2 to 32 returns, whatever the random start, 2^k - 1 values 0 and 1 of which 2^(k-1) are 1; it begins with the start sequence; every pattern of k bits except zeros appears at exactly one place of the period; the signs have correlation -1 with themselves moved round by anything but a multiple of the period. With is_full=False the first L - 1 values of it are returned. get_relation_m_sequence with a start sequence of -1 and 1, as documented, gives the same result for all such starts.", "quantifier": "all code lengths with a register of 2 to 32 bits, all random starts, all shifts", "why_tests_cant": "periods up to 2^32 - 1 for all starts cannot be tested; the argument needs the order of a polynomial root", "anchors": ["sweep_design/prepared_sweeps/code_m_sequence.py:get_m_sequence_code", "sweep_design/prepared_sweeps/code_m_sequence.py:get_relation_m_sequence"]}
{"id": "C98", "title": "Class of results", "statement": "Every method and operator of Relation, Signal, Spectrum and Sweep that returns objects returns them in the class it promises: select_data, exp, diff, integrate, interpolate_extrapolate, shift, the arithmetic operators (also reflected and mixed), add_phase, sub_phase and get_reverse_signal in the class of the object they are called on, equalize each operand in its own class, convolve and correlate in the class they are called on, get_spectrum, get_reverse_filter and get_spectrum_from_amp_phase Spectrum, get_signal Signal or Sweep, amplitude and phase spectra Relation. The class of an object never changes afterwards, whatever is called or assigned.", "quantifier": "all sessions (sequences of calls and assignments), all calls, all objects, any Config methods that do not modify their arguments", "why_tests_cant": "the class depends on cached counterparts left by earlier calls, so single calls on fresh objects do not show it", "anchors": ["sweep_design/relation.py:Relation.equalize", "sweep_design/relation.py:Relation.shift", "sweep_design/relation.py:Relation.convolve", "sweep_design/signal.py:Signal.get_spectrum", "sweep_design/signal.py:Signal.add_phase", "sweep_design/spectrum.py:Spectrum.get_signal", "sweep_design/spectrum.py:Spectrum.get_amp_spectrum"]}
{"id": "C99", "title": "Iterating over a relation never ends", "statement": "Relation has __getitem__ but no __iter__. Iterating over a relation for which get_data succeeds never raises and never ends; item i is the sample nearest to the position i on the axis (the first of them in a tie), which is sample i if the axis is 0, 1, 2, ...; from the end of the axis on it is always the last sample (unless the axis runs backwards). Unpacking a relation into any number of names raises ValueError. list(r), and the conversion of r to an array that numpy tries for np.array(r) or np.float64(2) * r, never give a result. p in r is never False: it is True if p is the item of some whole number and is otherwise never answered; on the axis 0, 1/2, 1 the middle sample is never found. reversed(r) gives len(r) items, those for the positions len(r)-1, ..., 1, 0. Indexing by an object that is neither int, float, complex nor a slice returns None.", "quantifier": "all relations, all numbers of steps", "why_tests_cant": "a test of a loop that never ends does not end", "anchors": ["sweep_design/relation.py:Relation.__getitem__", "sweep_design/relation.py:Relation.__len__"]}
{"id": "C100", "title": "A given axis object is kept by spectra and signals", "statement": "With the default methods signal.get_spectrum(axis) and spectrum.get_signal(axis) return an object whose x is the very axis object passed in, not a copy; it stays on that object whatever is called or edited later, so an assignment to the axis reaches the result. The same holds for any configured transform that hands back the axis it was given.", "quantifier": "all heaps, objects, axes, histories of calls and edits; all Config methods meeting the contract", "why_tests_cant": "Tests compare axis values, which are equal for a copy; the sharing shows only when the axis is edited afterwards.", "anchors": ["sweep_design/signal.py:Signal.get_spectrum", "sweep_design/spectrum.py:Spectrum.get_signal", "sweep_design/defaults/methods.py:signal2spectrum", "sweep_design/defaults/methods.py:spectrum2signal", "sweep_design/axis.py:ArrayAxis"]}
{"id": "C101", "title": "What describes an a-priori sweep", "statement": "An ApriorUncalculatedSweep asks its method once, for the spectrum of the a-priori data (a spectrum itself, the spectrum of a signal, a relation taken as a spectrum, or the spectrum of samples on the given time). If the method returns strictly increasing times from 0, frequencies and amplitudes of equal length, then on the axis of the un-normalised sweep frequency_time is the piecewise linear function through the frequencies and amplitude_time the one through the amplitudes, at the returned times stretched over the axis; a_prior_signal is the a-priori signal.", "quantifier": "all a-priori data, methods, times, axes and phases for which the calls succeed", "why_tests_cant": "A test needs a method whose frequencies and amplitudes differ, and an axis other than the returned times, to see a swapped or misplaced description.", "anchors": ["sweep_design/uncalculated_sweep.py:ApriorUncalculatedSweep.__init__", "sweep_design/uncalculated_sweep.py:ApriorUncalculatedSweep.__call__", "sweep_design/defaults/sweep_methods.py:get_info_from_a_prior_data", "sweep_design/defaults/sweep_methods.py:convert_freq2time"]}
{"id": "C102", "title": "Working with a moved relation", "statement": "For a relation r and q = r.shift(d): q.integrate(), q.diff(), q.exp() and q.select_data(s + d, e + d) are the results of the same calls on r, shifted by d; q[v + d] is r[v] with its x moved by d; q.get_norm() == r.get_norm(). For two relations shifted by the same d, every operator and interpolate_extrapolate give the result for the unshifted ones, shifted by d. If one side raises, so does the other, with the same exception. The results of convolve and correlate do not change at all when each operand is shifted by its own amount: they do not tell where the operands were.", "quantifier": "all relations, shifts, operators, bounds and values, in exact arithmetic", "why_tests_cant": "The number of points, the selection masks and the interpolation intervals all depend on differences of coordinates; a test can only try some offsets, and a use of an absolute coordinate somewhere shows only for particular ones.", "anchors": ["sweep_design/relation.py:Relation.shift", "sweep_design/relation.py:Relation.select_data", "sweep_design/relation.py:Relation.integrate", "sweep_design/relation.py:Relation.diff", "sweep_design/relation.py:Relation.__getitem__", "sweep_design/relation.py:Relation.interpolate_extrapolate", "sweep_design/defaults/methods.py:get_common_x", "sweep_design/defaults/methods.py:convolve", "sweep_design/defaults/methods.py:correlate"]}
{"id": "C103", "title": "Interpolation and arithmetic of samples in double precision", "statement": "With a rounding after every floating point operation: interpolating a relation on its own axis returns it unchanged; for two relations whose axes have equal fields each value of +, -, *, / is the exact result for the two samples rounded once; sums and products on any axes do not depend on the order of the operands; on another axis a value is exactly the sample at a sample point, exactly zero outside the range, and between two samples within 14 unit roundoffs (times the larger of the two absolute values) of the line through them. The associative law of addition fails for doubles.", "quantifier": "every rounding with bounded relative error (round-to-nearest doubles are one), every pair of relations on axes whose computed points increase, every target axis", "why_tests_cant": "Rounding errors differ for each input; tests compare with a tolerance chosen by hand and cannot show that the bound holds for all samples or that equal axes introduce no interpolation error at all.", "anchors": ["sweep_design/relation.py:Relation.interpolate_extrapolate", "sweep_design/relation.py:Relation.equalize", "sweep_design/relation.py:Relation.__add__", "sweep_design/relation.py:Relation.__mul__", "sweep_design/defaults/methods.py:interpolate_extrapolate", "sweep_design/defaults/methods.py:math_operation"]}
{"id": "C104", "title": "Integrals, differences, norm, convolution and correlation in double precision", "statement": "For a relation of n+1 samples on an axis whose step is not lost in rounding, with a rounding after every floating point operation: integrate, diff, get_norm, convolve and correlate succeed. Value i of the integral is the trapezoid sum up to 2(i+3) unit roundoffs times the trapezoid sum of the absolute values; a difference quotient is right up to 3 unit roundoffs of itself; the norm is right up to 3(n+5) + 16 M/step unit roundoffs of itself, where M bounds the ends of the axis; a value of a convolution or correlation of relations with the same step, number of samples and computed length end - start is the sum of products up to 2(n+1) unit roundoffs times the sum of their absolute values. numpy may sum in any order.", "quantifier": "every rounding with bounded relative error (round-to-nearest doubles are one), every number of samples, all real samples, every order of summation", "why_tests_cant": "Accumulated rounding depends on every sample and on the order in which numpy adds; a test sees a few inputs on one machine and cannot bound the error for all of them.", "anchors": ["sweep_design/relation.py:Relation.integrate", "sweep_design/relation.py:Relation.diff", "sweep_design/relation.py:Relation.get_norm", "sweep_design/relation.py:Relation.convolve", "sweep_design/relation.py:Relation.correlate", "sweep_design/defaults/methods.py:integrate", "sweep_design/defaults/methods.py:differentiate", "sweep_design/defaults/methods.py:one_integrate", "sweep_design/defaults/methods.py:convolve", "sweep_design/defaults/methods.py:correlate"]}
{"id": "C105", "title": "Item access in double precision", "statement": "With a rounding after every floating point operation, r[v] always returns a sample (position and value), unless the nearest position has none because the axis was stretched after construction: IndexError. A computed point of the axis gives back itself and its sample. No other sample is nearer by more than the two roundings of the distances can hide. On an axis whose step is not lost in rounding, every v that is nearer to start + j*step than half a step, by a margin of a few roundings, gives sample j. At the middle between two samples the rounding of the positions decides, while exact arithmetic takes the lower one.", "quantifier": "every rounding with bounded relative error (round-to-nearest doubles are one), every axis, all real samples, every v", "why_tests_cant": "Which of two neighbours is nearer depends on the last bits of both positions; tests look at a few values far from the middle.", "anchors": ["sweep_design/relation.py:Relation.__getitem__", "sweep_design/axis.py:ArrayAxis.array"]}
{"id": "C106", "title": "What an a-priori generator keeps of its data", "statement": "ApriorUncalculatedSweep(time, data, method) keeps a signal object and descriptions in arrays of its own. For a signal or sweep the kept object is the data itself, and the descriptions are made from the spectrum get_spectrum() returns, which is an older one if one is cached, even if the samples have been written since. For a spectrum the descriptions are made from the data and the kept object is the one get_signal() returns, before and after. A plain relation is read as a spectrum: a new spectrum object with copies of its axis and samples, whose new signal is kept. Any other data becomes a new signal on the time, on the given axis object itself if there is one; without a time or without data an exception is raised. Without a method the one SweepConfig.freq2time names at that moment is used. The constructor changes no samples, axes, classes or references of existing objects. Writing into the samples of the data afterwards does not change the descriptions; it does change the energy the sweep is scaled to.", "quantifier": "all heaps, all data, all axes and arrays as time, all conversion methods, all configured methods that keep existing objects; the last sentence for the default methods and every later history", "why_tests_cant": "which object is kept and when it is read shows only after a history of calls and writes", "anchors": ["sweep_design/uncalculated_sweep.py:ApriorUncalculatedSweep.__init__", "sweep_design/uncalculated_sweep.py:ApriorUncalculatedSweep.__call__", "sweep_design/defaults/sweep_methods.py:get_info_from_a_prior_data", "sweep_design/defaults/sweep_methods.py:convert_freq2time", "sweep_design/config/sweep_config.py:SweepConfig.freq2time"]}
{"id": "C107", "title": "The unit of time", "statement": "The same samples on an axis whose start, end and step are all multiplied by c > 0 (seconds written as milliseconds). shift by c\u00b7d, select_data and slices between bounds multiplied by c, item access at c\u00b7x, exp, interpolate_extrapolate, equalize, all operators, convolve and correlate give the old result with its positions multiplied by c; integrate and one_integrate give the old values times c, diff the old values divided by c, get_norm the same number. get_spectrum gives the old samples over frequencies divided by c, and get_signal of that spectrum gives the old signal in the new unit; amplitude and phase spectra, add_phase, sub_phase, Signal.shift, reverse filters and reverse signals, Signal.convolve and Signal.correlate follow in the same way. An exception is the same exception. A generator with its times multiplied by c and its frequencies divided by c makes a sweep with the same samples in the new unit. Outside this is the constructor from an array of floats, which rounds the step: 0, 1.5, 3, 4.5 with four samples is refused, 0, 1500, 3000, 4500 is not.", "quantifier": "all relations, signals and spectra, all c > 0, all arguments; for sweeps all descriptions, and for callables every quadrature that follows a change of variable (the integral does)", "why_tests_cant": "a relation between two runs for every unit; a fixed tolerance or a forgotten factor of the step shows only when the unit changes", "anchors": ["sweep_design/relation.py:Relation.shift", "sweep_design/relation.py:Relation.select_data", "sweep_design/relation.py:Relation.__getitem__", "sweep_design/relation.py:Relation.integrate", "sweep_design/relation.py:Relation.diff", "sweep_design/relation.py:Relation.get_norm", "sweep_design/relation.py:Relation.convolve", "sweep_design/relation.py:Relation.correlate", "sweep_design/defaults/methods.py:get_common_x", "sweep_design/defaults/methods.py:interpolate_extrapolate", "sweep_design/signal.py:Signal.get_spectrum", "sweep_design/signal.py:Signal.shift", "sweep_design/spectrum.py:Spectrum.get_signal", "sweep_design/spectrum.py:Spectrum.get_reverse_filter", "sweep_design/uncalculated_sweep.py:UncalculatedSweep.__call__", "sweep_design/axis.py:get_array_axis_from_array"]}
{"id": "C108", "title": "The frequencies of the shuffle sweep", "statement": "get_shuffle with a step dt of the time smaller than length_time_segments and a positive end has N = ceil(end / length_time_segments) segments and N + 1 segment frequencies: the evenly spaced grid from f_start to f_end, rounded to round_number_frequency decimals if that is given and not 0, then shuffled. Segment i contributes m = ceil(length_time_segments / dt) entries; entry j is the part (j + 1) / m of the way from segment frequency i to i + 1 along half a cosine, so that a segment ends on its frequency and does not repeat the end of the one before. The last two entries are cut off, so the last segment frequency is never reached. On a time axis that starts at 0 the N\u00b7m - 2 entries are stretched evenly over the axis, and the envelope is the Tukey envelope at both ends.", "quantifier": "all outcomes of the shuffle, all bands, lengths, time axes and roundings", "why_tests_cant": "random outcomes; the number of entries of a segment shows only when length and step do not divide the time", "anchors": ["sweep_design/prepared_sweeps/pseudorandom_shuffle.py:get_shuffle", "sweep_design/defaults/sweep_methods.py:_extract_x_t"]}
{"id": "C109", "title": "The unit of the samples", "statement": "The same object with all its samples multiplied by k. shift, select_data, item access, interpolate_extrapolate, integrate, diff and one_integrate give the old result times k for every number k, get_norm the old one times k\u00b2. Sums and differences of two objects follow a common factor, products the product of the factors, quotients their quotient, with numbers as with objects; convolve takes the product of the factors and correlate the product with the conjugate of the second. get_spectrum and get_signal follow every real factor; amplitude spectra follow its absolute value. For k > 0 phase spectra do not change, add_phase and sub_phase take the factor of the object and none from the one whose phase is used, Signal.shift, Signal.convolve and Signal.correlate, max and min follow the factor, and reverse filters and reverse signals are divided by k for every percent. An exception is the same exception. A generator whose amplitude description is multiplied by k makes a sweep with samples and amplitude_time multiplied by k and the same frequency_time.", "quantifier": "all relations, signals and spectra, all factors (nonzero for divisors, positive where phases or extrema are taken), all arguments; for sweeps all descriptions of frequency and amplitude", "why_tests_cant": "a relation between two runs for every factor; an absolute threshold in the reverse filter or a constant added somewhere would pass tests on data of size about one", "anchors": ["sweep_design/relation.py:Relation.shift", "sweep_design/relation.py:Relation.select_data", "sweep_design/relation.py:Relation.__getitem__", "sweep_design/relation.py:Relation.integrate", "sweep_design/relation.py:Relation.diff", "sweep_design/relation.py:Relation.get_norm", "sweep_design/relation.py:Relation._operation", "sweep_design/relation.py:Relation.convolve", "sweep_design/relation.py:Relation.correlate", "sweep_design/signal.py:Signal.get_spectrum", "sweep_design/signal.py:Signal.get_reverse_signal", "sweep_design/signal.py:Signal.shift", "sweep_design/spectrum.py:Spectrum.get_signal", "sweep_design/spectrum.py:Spectrum.get_phase_spectrum", "sweep_design/spectrum.py:Spectrum.get_reverse_filter", "sweep_design/uncalculated_sweep.py:UncalculatedSweep.__call__"]}
{"id": "C110", "title": "How loud an a-priori sweep is", "statement": "A-priori data (spectrum, signal, relation or array) multiplied by k \u2260 0. The conversion methods return the times multiplied by k\u00b2 and the same frequencies; the amplitudes are multiplied by k\u00b2 by simple_freq2time (the default), by |k| by proportional_freq2time, and not at all by dwell. A generator exists exactly when the old one does, its a-priori signal is k times the old one, and its frequency_time is the same. Called with is_normalize=False the samples and amplitude_time are multiplied by k\u00b2, |k| or 1 according to the method, so with the default method data twice as loud make a sweep four times as loud. Called with is_normalize=True the samples are multiplied by |k| for every method.", "quantifier": "all data, all k \u2260 0, all times and tht0; any conversion method with times starting at 0 that multiplies its amplitudes by some e > 0, in particular the three of the package", "why_tests_cant": "a relation between two runs for every factor; tests use one loudness", "anchors": ["sweep_design/defaults/sweep_methods.py:simple_freq2time", "sweep_design/utility_functions/ftat_functions.py:proportional_freq2time", "sweep_design/utility_functions/ftat_functions.py:dwell", "sweep_design/uncalculated_sweep.py:ApriorUncalculatedSweep.__init__", "sweep_design/uncalculated_sweep.py:ApriorUncalculatedSweep.__call__"]}
{"id": "C111", "title": "Windows and operations", "statement": "Cutting a window out of a result gives the same relation (axis and samples, or the same error) as computing on the window. For the operators with a number and exp: (r op c).select_data(a, b) is r.select_data(a, b) op c. For two relations on equal axes: (r1 op r2).select_data(a, b) is r1.select_data(a, b) op r2.select_data(a, b). For r.diff(): with an axis that is a whole number of samples long, the window from a + sample/2 to b - sample/2 of r.diff() is the diff of the window from a to b, and the one exists exactly when the other does. For r.integrate(): the window from a + sample to b of the integral is the integral of the window from a to b plus r.integrate() at the sample where the window begins (plus nothing when it begins where r begins). The integral over a window is the sum of the integrals over two windows that share the sample at which it is split. On an axis that is not a whole number of samples long the law for diff fails.", "quantifier": "all balanced relations, all bounds or missing bounds, all operators and numbers for which the result on the whole relation is finite", "why_tests_cant": "relations between two orders of doing things for every window; the tests cut one window and compute nothing on it", "anchors": ["sweep_design/relation.py:Relation.select_data", "sweep_design/relation.py:Relation.exp", "sweep_design/relation.py:Relation.diff", "sweep_design/relation.py:Relation.integrate", "sweep_design/relation.py:Relation._operation", "sweep_design/relation.py:Relation.__getitem__"]}
{"id": "C112", "title": "The amplitude spectrum of a signal", "statement": "For a signal of at least two samples on an increasing axis: every value of Signal.get_amplitude_spectrum() is between 0 and the sum of the absolute samples; the value at frequency 0 is the absolute value of the sum of the samples; get_phase_spectrum() has the same axis, and amplitude times exp(i phase) is get_spectrum(). On equal axes the amplitude spectrum of a + b and of a - b lies, frequency by frequency, between the absolute difference and the sum of the two amplitude spectra. The amplitude spectrum of c * s is |c| times that of s for every number c. A signal whose samples are reversed on the same axis, and a signal that starts at zero and is shifted by a whole number of samples, have the amplitude spectrum of the original.", "quantifier": "all signals of at least two samples with start <= end, all numbers c, all whole shifts", "why_tests_cant": "statements about sums over all samples at every frequency, between pairs of signals; tests compare single spectra", "anchors": ["sweep_design/signal.py:Signal.get_amplitude_spectrum", "sweep_design/signal.py:Signal.get_phase_spectrum", "sweep_design/signal.py:Signal.get_spectrum", "sweep_design/spectrum.py:Spectrum.get_amp_spectrum", "sweep_design/spectrum.py:Spectrum.get_phase_spectrum", "sweep_design/signal.py:Signal.shift"]}
{"id": "C113", "title": "Which exception", "statement": "What is raised when the input cannot be used. get_code_sweep_segments with an empty code: IndexError, for a Relation, a Signal and a Sweep. get_m_sequence_code for more than 2^32 + 1 entries: ValueError. get_relation_m_sequence on an axis of 1, 3 or more than 2^32 + 1 points: ValueError; of 2 points: IndexError; with an empty start sequence: IndexError; with a start sequence of 1 or more than 32 entries: ValueError. A time array of less than two numbers: ValueError from Relation, interpolate_extrapolate, UncalculatedSweep and its call, get_shuffle and get_dwell_sweep; a non-decreasing float array with a repeated value: the exception of a division by zero; the conversion of an array to an axis raises nothing else. No time at all: AttributeError from get_linear_sweep, ValueError from get_shuffle and get_dwell_sweep. A zero sample: the exception of a division by zero. get_shuffle with segments of length 0: likewise; with a negative number of frequencies or of samples per segment: ValueError. No a-priori data: BadInputError; bare values without a time: ValueError; bare values of a wrong number: NotEqualError. A frequency function returning a wrong number of values: NotEqualError; an amplitude function doing so: ValueError, or NotEqualError if it returns one value. get_spectrum of a signal running backwards, when prolonging it to time zero would give less points than it has samples: ValueError. (A division by zero raises ZeroDivisionError for Python numbers; for numpy numbers it gives inf or nan, whose rounding to an integer raises OverflowError or ValueError. The three are not told apart.)", "quantifier": "all other arguments, whatever they are", "why_tests_cant": "tests check one exception each at most; here the kind of exception is fixed for every input in the class", "anchors": ["sweep_design/prepared_sweeps/sweep_from_code.py:get_code_sweep_segments", "sweep_design/prepared_sweeps/code_m_sequence.py:get_m_sequence_code", "sweep_design/prepared_sweeps/code_m_sequence.py:get_relation_m_sequence", "sweep_design/axis.py:get_array_axis_from_array", "sweep_design/relation.py:Relation.__init__", "sweep_design/relation.py:Relation.interpolate_extrapolate", "sweep_design/uncalculated_sweep.py:UncalculatedSweep.__init__", "sweep_design/uncalculated_sweep.py:UncalculatedSweep.__call__", "sweep_design/uncalculated_sweep.py:ApriorUncalculatedSweep.__init__", "sweep_design/prepared_sweeps/linear_sweep.py:get_linear_sweep", "sweep_design/prepared_sweeps/pseudorandom_shuffle.py:get_shuffle", "sweep_design/prepared_sweeps/dwell_sweep.py:get_dwell_sweep", "sweep_design/defaults/methods.py:signal2spectrum"]}
{"id": "C114", "title": "Largest and smallest values, and energy", "statement": "max() and min() are the greatest and the least sample (ValueError without samples). Resampling stays between the smallest sample, or zero, and the largest, or zero. For relations on any axes, with min and max of the operands extended by zero: the values of a + b lie between the sums of the minima and of the maxima, the values of a - b between the corresponding differences, and no value of a * b exceeds the product of the largest absolute samples. On an increasing axis the integral lies between min and max times the length of the axis; integration keeps order (a relation nowhere larger has an integral nowhere larger) and the integral of samples >= 0 never falls. On equal axes get_norm satisfies the parallelogram law: norm(a + b) + norm(a - b) = 2 norm(a) + 2 norm(b), and its square root the triangle inequality. For relations with equal samples and durations that are whole numbers of samples: no value of convolve exceeds the largest absolute sample of one operand times the sum of absolute samples of the other, the sum of the values of convolve is the product of the sums of samples, and the square of a value of correlate is at most the product of the sums of squares.", "quantifier": "all balanced relations meeting the conditions named", "why_tests_cant": "inequalities and identities over all samples and pairs of relations; tests compare single values", "anchors": ["sweep_design/relation.py:Relation.max", "sweep_design/relation.py:Relation.min", "sweep_design/relation.py:Relation.interpolate_extrapolate", "sweep_design/relation.py:Relation.__add__", "sweep_design/relation.py:Relation.__sub__", "sweep_design/relation.py:Relation.__mul__", "sweep_design/relation.py:Relation.integrate", "sweep_design/relation.py:Relation.get_norm", "sweep_design/relation.py:Relation.convolve", "sweep_design/relation.py:Relation.correlate", "sweep_design/defaults/methods.py:one_integrate"]}
{"id": "C115", "title": "Resampling on a finer axis loses nothing", "statement": "Interpolating a relation with interpolate_extrapolate to an axis that contains every point of the relation's own axis, and then back to its own axis (given as an axis or as a relation), returns the relation exactly. If the finer axis also has the same start and end, then every later resampling to any axis gives the same result as resampling the relation directly, one_integrate gives the same integral, and max and min are unchanged.", "quantifier": "all relations with at least two samples on rising axes, all finer axes containing their points, all target axes", "why_tests_cant": "a test resamples a few arrays to one or two axes; here the finer axis is arbitrary, and the integral and extremes are compared exactly", "anchors": ["sweep_design/relation.py:Relation.interpolate_extrapolate", "sweep_design/defaults/methods.py:interpolate_extrapolate", "sweep_design/defaults/methods.py:one_integrate", "sweep_design/relation.py:Relation.max", "sweep_design/relation.py:Relation.min"]}
{"id": "C116", "title": "Arithmetic of relations on one grid", "statement": "For relations whose samples lie on one grid but cover different stretches of it, addition and multiplication are commutative and associative and multiplication distributes over addition, as exact equalities of the results with their axes; (a + b) - b is a continued by zeros over the stretch of both and returns a on a's axis; a - b is a + (-1) b; the product of relations on stretches that do not overlap is zero everywhere. On different grids the order of additions matters.", "quantifier": "all relations on one grid, whatever stretches of it they cover, real or complex values", "why_tests_cant": "a test adds two or three relations with fixed ranges; the laws are about every choice of ranges, overlapping or not", "anchors": ["sweep_design/relation.py:Relation.__add__", "sweep_design/relation.py:Relation.__sub__", "sweep_design/relation.py:Relation.__mul__", "sweep_design/relation.py:Relation.equalize", "sweep_design/relation.py:Relation.interpolate_extrapolate", "sweep_design/defaults/methods.py:get_common_x"]}
{"id": "C117", "title": "m-sequence lengths with a floating point logarithm", "statement": "The number of bits of an m-sequence is found with a floating point logarithm. If that logarithm has a relative error of at most 2^-50, get_m_sequence_code(L) returns what it would with the exact logarithm, or raises the same exception, for every L except 2^k + 1 with k from 2 to 32, and so does get_relation_m_sequence for every number of points except these. For L = 2^k + 1 with k at most 31 the code has 2^k - 1 values, as with the exact logarithm, or 2^k; on an axis of 2^k + 1 points get_relation_m_sequence raises NotEqualError, as with the exact logarithm, or succeeds. For k = 32 get_m_sequence_code returns what the exact logarithm gives, 2^32 - 1 values, or raises ValueError, and get_relation_m_sequence raises NotEqualError, as with the exact logarithm, or ValueError. Without is_full get_m_sequence_code(L) never returns L values, for any L, logarithm or rounding. With correctly rounded double precision logarithms the number of bits is off, by one, exactly for k = 29 and k = 31.", "quantifier": "all integer code lengths, all axes, every logarithm with a small relative error", "why_tests_cant": "the exceptional lengths are above half a thousand million and depend on the C library", "anchors": ["sweep_design/prepared_sweeps/code_m_sequence.py:get_m_sequence_code", "sweep_design/prepared_sweeps/code_m_sequence.py:get_relation_m_sequence"]}
{"id": "C118", "title": "Which objects the prepared sweeps, codes and corrections change, share and make", "statement": "get_linear_sweep, get_shuffle, get_dwell_sweep, get_code_zinger_relation, get_code_sweep_segments, get_convolution_sweep_and_code, get_relation_m_sequence, get_correction_for_source and correct_sweep, returning or raising, change no axis, no relation, no array and not Config, with one exception: get_relation_m_sequence writes 1 into the first entry of a start_sequence whose entries are all zero, in the array of the caller, and leaves any other start_sequence as it is. The dwell sweep, a zinger code of two or more periods, both sweeps made from a code and both corrections are new relations with an axis and an array of their own, so that editing the result never reaches older relations nor the other way round. For one period or fewer get_code_zinger_relation returns the object it was given. A linear or shuffled sweep and its frequency_time and amplitude_time are on the very axis object passed as time, as is an m-sequence that is not full, so that assigning to its start, end or sample changes that axis; for an array, and for a full m-sequence, the axis is new. The result of an arithmetic operator, and so a dwell sweep, has no a_prior_signal. The prepared sweeps and both sweeps made from a code are of class Sweep, an m-sequence is a Relation, a zinger code has the class of its argument, and both corrections are of class Signal whatever the class of their argument.", "quantifier": "all object graphs with any sharing, all arguments, any Config methods that leave their arguments alone", "why_tests_cant": "aliasing shows only after later edits; which objects are shared depends on every combination of arguments", "anchors": ["sweep_design/prepared_sweeps/linear_sweep.py:get_linear_sweep", "sweep_design/prepared_sweeps/pseudorandom_shuffle.py:get_shuffle", "sweep_design/prepared_sweeps/dwell_sweep.py:get_dwell_sweep", "sweep_design/prepared_sweeps/code_zinger.py:get_code_zinger_relation", "sweep_design/prepared_sweeps/code_m_sequence.py:get_relation_m_sequence", "sweep_design/prepared_sweeps/sweep_from_code.py:get_code_sweep_segments", "sweep_design/prepared_sweeps/sweep_from_code.py:get_convolution_sweep_and_code", "sweep_design/utility_functions/source_sweep_correction.py:get_correction_for_source", "sweep_design/utility_functions/sweep_correction.py:correct_sweep"]}
{"id": "C119", "title": "Prepared sweeps, codes and corrections on objects compute the formulas", "statement": "With the default methods, get_linear_sweep, get_shuffle, get_code_zinger_relation and get_code_sweep_segments of a plain Relation, get_relation_m_sequence, get_correction_for_source and correct_sweep return objects with exactly the class, axis and samples (for sweeps also frequency_time, amplitude_time and a_prior_signal) that the formulas give for the current values of the arguments, or raise the same exception. After get_relation_m_sequence with a start_sequence, returning or raising, the array of the caller holds what the formulas say. A code may be given as a relation, an array or a list with the same outcome. How the arguments came about and what else shares their axes and arrays plays no role. get_dwell_sweep does the same for whatever description the conversion method returns: the given time becomes an axis, the signal and spectrum are taken from the data, and the sweep is the one the formulas give for that axis, that description and the current samples of the signal; an exception of any of these steps is the exception of the call.", "quantifier": "for all stores with coherent axis caches, all arguments, all max_len_seq, random, shuffling and decomposition functions, any number of passes of the correction loop; get_dwell_sweep, and a Sweep as argument of a correction, provided that the methods deriving the descriptions of a new sweep succeed", "why_tests_cant": "Whether a call reads a stale axis, keeps an older array or mixes up two intermediate objects depends on which objects are shared; tests build fresh arguments.", "anchors": ["sweep_design/prepared_sweeps/linear_sweep.py:get_linear_sweep", "sweep_design/prepared_sweeps/pseudorandom_shuffle.py:get_shuffle", "sweep_design/prepared_sweeps/code_zinger.py:get_code_zinger_relation", "sweep_design/prepared_sweeps/code_m_sequence.py:get_relation_m_sequence", "sweep_design/prepared_sweeps/sweep_from_code.py:get_code_sweep_segments", "sweep_design/utility_functions/source_sweep_correction.py:get_correction_for_source", "sweep_design/utility_functions/sweep_correction.py:correct_sweep", "sweep_design/prepared_sweeps/dwell_sweep.py:get_dwell_sweep"]}
{"id": "C120", "title": "Chains of convolutions", "statement": "For relations whose axes are whole numbers of one common sample long: with three relations of equal duration, Relation.convolve(Relation.convolve(a, b), c) and Relation.convolve(a, Relation.convolve(b, c)) are the same relation; with different durations both exist and their samples, counted from the beginning, are the same sums of products up to zeros at the end, but their axes can begin at different places (witness); for every number z the sum of y[i]*z**i over a convolution is the product of these sums of its operands, in particular the samples of the convolution add up to the product of the sums; if the first operand is zero at both ends, Relation.convolve(a, b).diff() and Relation.convolve(a.diff(), b) have the same samples counted from the beginning, up to zeros at the end.", "quantifier": "all relations of whole samples, all durations, values, numbers z", "why_tests_cant": "A test convolves a few short arrays; it does not establish an identity for all lengths and values, nor does it notice that the axis depends on the order.", "anchors": ["sweep_design/relation.py:Relation.convolve", "sweep_design/relation.py:Relation.diff", "sweep_design/defaults/methods.py:convolve", "sweep_design/defaults/methods.py:differentiate"]}
{"id": "C121", "title": "Correlation finds a delay", "statement": "If a relation q holds the relation r, d samples after its own beginning and a times as strong, and is zero otherwise, then Relation.correlate(q, r) exists, its sample at the time d*sample is a times the sum of the squares of the samples of r, and, unless a or r is zero, every other sample is strictly smaller in absolute value; where the axes of q and r begin does not matter. The same holds for Signal.correlate when both signals begin at zero.", "quantifier": "all relations r, all delays by whole samples, all factors, all recordings long enough", "why_tests_cant": "A test tries one wavelet and one delay; that no other time has as large a value for any wavelet needs a proof.", "anchors": ["sweep_design/relation.py:Relation.correlate", "sweep_design/signal.py:Signal.correlate", "sweep_design/defaults/methods.py:correlate"]}
{"id": "C122", "title": "Initial phase of a sweep and errors in the integral of its frequency", "statement": "Let three calls of one UncalculatedSweep succeed with the same time and the initial phases tht0, tht0 + pi/2 and tht0 + d. The three sweeps have the same axis, the same frequency_time and the same amplitude_time; at every sample the squares of the first two add up to the square of the amplitude, and the third is cos d times the first plus sin d times the second. A phase raised by pi turns every sample over, a phase raised by any whole number of 2 pi returns the same sweep. If the frequency is given as a function and the numerical integral is wrong by at most e, every sample differs from the sample with the exact integral by at most 2 pi e times its amplitude.", "quantifier": "all generators, times, phases, differences of phase and error bounds for which the calls succeed", "why_tests_cant": "tests sample a few phases; they cannot show the identity for every phase or that integration errors do not accumulate", "anchors": ["sweep_design/uncalculated_sweep.py:UncalculatedSweep.__call__", "sweep_design/uncalculated_sweep.py:UncalculatedSweep._func_tht", "sweep_design/defaults/methods.py:integrate_function"]}
{"id": "C123", "title": "Linear sweeps: aliases and reversal", "statement": "On a time axis from 0 in steps of s, get_linear_sweep with both end frequencies raised by a whole multiple of 1/s returns exactly the same samples, and with both end frequencies mirrored, f replaced by m/s - f, returns the samples with the opposite sign. If (f_start + f_end)/2 times the duration is a whole number, the sweep with f_start and f_end exchanged is the first one played backwards with the opposite sign.", "quantifier": "all axes beginning at zero with a whole number of samples, all end frequencies, tapers and whole numbers for which the calls succeed", "why_tests_cant": "tests compare a few frequencies and cannot rule out a difference at others", "anchors": ["sweep_design/prepared_sweeps/linear_sweep.py:get_linear_sweep", "sweep_design/uncalculated_sweep.py:UncalculatedSweep.__call__"]}
{"id": "C124", "title": "Spectrum of a tone", "statement": "A signal of N samples at times that are whole multiples of the sample s, with time zero among them, holds A cos(2 pi f t + phi) with f = m/(N s). Signal.get_spectrum returns the frequencies k/(N s) for k = 0..N//2. If 0 < m < N/2 the value at f is N A/2 exp(i phi), whatever the time of the first sample, and all others are zero. If m = 0 or m = N/2 the value at f is N A cos phi and all others are zero.", "quantifier": "all amplitudes, phases, sample steps, first samples, lengths and whole numbers of periods", "why_tests_cant": "tests check single tones at time zero with a tolerance", "anchors": ["sweep_design/signal.py:Signal.get_spectrum", "sweep_design/defaults/methods.py:signal2spectrum", "sweep_design/defaults/methods.py:_calculate_spectrum"]}
{"id": "C125", "title": "Correlation of a repeated code with one period of it", "statement": "A code of N numbers repeated p times by get_code_zinger, correlated by Relation.correlate with one period on the same sample, has at the lags 0 to (p-1)N the values of the correlation of the code round the circle. If the code consists of the signs 1 - 2 v of the full m-sequence of get_m_sequence_code with N = 2^k - 1, these values are N at the multiples of N and -1 at all other lags.", "quantifier": "all codes that are not empty, all numbers of repetitions and samples; all m-sequences with 2 to 32 bits", "why_tests_cant": "the longest m-sequences have more than four thousand million entries; tests try short ones and few repetitions", "anchors": ["sweep_design/prepared_sweeps/code_zinger.py:get_code_zinger", "sweep_design/prepared_sweeps/code_m_sequence.py:get_m_sequence_code", "sweep_design/relation.py:Relation.correlate", "sweep_design/defaults/methods.py:correlate"]}
{"id": "C126", "title": "Phase operands, convolutions and codes with objects of every class", "statement": "Run on objects, add_phase and sub_phase of a spectrum or a signal with an operand that is a relation, signal or sweep (possibly the same object), Signal.convolve, Signal.correlate, Sweep.convolve and Sweep.correlate of relations, signals and sweeps in any combination, get_code_zinger_relation of a signal or sweep, get_code_sweep_segments of a signal or sweep, and get_convolution_sweep_and_code of a code (object, array or list) and an object return an object with exactly the axis and samples of the formulas on plain values, or the same exception. Spectra cached on the way do not change the result.", "quantifier": "all heaps in which axis caches are coherent and cached spectra belong to the current samples, all objects, codes and numbers of periods", "why_tests_cant": "tests run a few objects and cannot exclude that some sharing, cache or class of the operand changes the result", "anchors": ["sweep_design/spectrum.py:Spectrum.add_phase", "sweep_design/spectrum.py:Spectrum.sub_phase", "sweep_design/signal.py:Signal.add_phase", "sweep_design/signal.py:Signal.sub_phase", "sweep_design/signal.py:Signal.convolve", "sweep_design/signal.py:Signal.correlate", "sweep_design/prepared_sweeps/code_zinger.py:get_code_zinger_relation", "sweep_design/prepared_sweeps/sweep_from_code.py:get_code_sweep_segments", "sweep_design/prepared_sweeps/sweep_from_code.py:get_convolution_sweep_and_code"]}
{"id": "C127", "title": "Codes made from signals wrap round the axis of the base", "statement": "For a Signal or Sweep base of at least two samples at -c s, ..., b s, get_code_zinger_relation(base, p) with p > 1 and get_code_sweep_segments(code, base) return objects on the axis of the base. Sample j of the zinger code is y[j] plus the sum of y[j - k b + 2 c] over k < p, and sample j of the segments is code[0] y[j] plus the sum over k >= 1 of code[k] y[j - k b - 1 + 2 c], indices taken modulo the number of samples. For a base that begins at zero these are y[j + k] and y[j + k - 1]; as many periods as samples add the sum of all samples to each sample, and the code 1, -1 gives silence.", "quantifier": "all signals and sweeps on such axes, all numbers of periods, all codes", "why_tests_cant": "tests compare a few short codes and would have to foresee that copies are folded back", "anchors": ["sweep_design/prepared_sweeps/code_zinger.py:get_code_zinger_relation", "sweep_design/prepared_sweeps/sweep_from_code.py:get_code_sweep_segments", "sweep_design/signal.py:Signal.shift"]}
{"id": "C128", "title": "Shifting a signal by any amount", "statement": "For a signal of n >= 2 samples on a rising axis that begins at zero and every number d: shift(d) keeps the axis; the spectrum of the result is the spectrum of the signal with each value turned by -2 pi f d, except the value at half the sampling frequency (n even), which is multiplied by cos(pi d / sample). shift(0) returns the signal; the order of two shifts does not matter; shift(d1) followed by shift(d2) equals shift(d1 + d2), and shift(d) followed by shift(-d) restores the signal, exactly if n is odd, or the alternating sum of the samples is zero, or an amount is a whole number of samples. The sum of the samples is kept; the sum of squares is kept for odd n and falls by (alternating sum)^2 sin^2(pi d / sample) / n for even n.", "quantifier": "all signals from zero, all real amounts", "why_tests_cant": "tests use whole samples or compare a few fractional shifts with a tolerance; the exact condition needs a proof for every n and d", "anchors": ["sweep_design/signal.py:Signal.shift", "sweep_design/signal.py:Signal.add_phase", "sweep_design/signal.py:Signal.get_spectrum", "sweep_design/spectrum.py:Spectrum.get_signal"]}
{"id": "C129", "title": "Accuracy on samples of a smooth function", "statement": "Let the relation hold the values of a function f at the points of its axis. If |f''| <= M on the axis and neighbouring points are at most h apart, every value that interpolate_extrapolate gives inside the axis is within M h^2 / 8 of f there; if f changes by at most L per unit, within L h / 2. On an axis of a whole number of samples of length s, value i of integrate() is within M s^2 / 12 times the length of the integral of f from the start to the time of that value, and one_integrate within the same bound of the integral over the axis; get_norm() times the sample is within M2 s^2 / 12 times the length of the integral of f^2, where M2 bounds the second derivative of f^2; diff() gives at each of its times f' up to M s / 4, and up to M3 s^2 / 24 if f'' changes by at most M3 per unit. Samples of a parabola reach the bounds for interpolation and integration.", "quantifier": "all functions with the stated derivatives, all axes (whole axes for integrate and diff), all target axes", "why_tests_cant": "tests compare a few functions on a few axes with a tolerance; the bounds hold for every function and every step, including the constants", "anchors": ["sweep_design/relation.py:Relation.interpolate_extrapolate", "sweep_design/relation.py:Relation.integrate", "sweep_design/relation.py:Relation.diff", "sweep_design/defaults/methods.py:one_integrate", "sweep_design/relation.py:Relation.get_norm"]}
{"id": "C130", "title": "Sweeps from sampled frequencies", "statement": "On a time axis 0, s, ..., k s let the frequencies given to UncalculatedSweep be the values of a law f at these times, with |f''| <= M. Every sample of the sweep is within amplitude * 2 pi M s^2 x / 12 of amplitude * sin(2 pi * integral of f from 0 to x + tht0), where x is its time; samples of a linear law lose nothing. The sweep from the samples and the sweep from the function f itself have the same axis and amplitudes, and their samples differ by at most amplitude * 2 pi (e + M s^2 x / 12), where e bounds the error of quad.", "quantifier": "all frequency laws with a bounded second derivative, all whole axes from zero, all amplitudes and initial phases", "why_tests_cant": "tests compare single laws; the order of the error and its constant need a proof", "anchors": ["sweep_design/uncalculated_sweep.py:UncalculatedSweep.__call__", "sweep_design/uncalculated_sweep.py:UncalculatedSweep._array_tht", "sweep_design/uncalculated_sweep.py:UncalculatedSweep._func_tht", "sweep_design/defaults/methods.py:integrate_function"]}
{"id": "C131", "title": "Spectrum of a product of signals", "statement": "Let s be a signal on an axis of whole samples. If it is multiplied by cos(2 pi f0 t + phi) on the same axis, for any f0 and phi, the spectrum of the product at f is half the Fourier sum of s at f - f0 times exp(i phi) plus half of that at f + f0 times exp(-i phi). If two signals on the axis 0, s, ..., K s are multiplied, the spectrum of the product at f is the sum over the K + 1 frequencies m / ((K + 1) s) of the Fourier sum of the first there times that of the second at f minus it, divided by K + 1.", "quantifier": "all signals, all carrier frequencies and phases, all numbers of samples", "why_tests_cant": "tests look at single products; the identity needs every frequency and every length", "anchors": ["sweep_design/relation.py:Relation.__mul__", "sweep_design/signal.py:Signal.get_spectrum", "sweep_design/defaults/methods.py:signal2spectrum"]}
{"id": "C132", "title": "Sweeps in double precision", "statement": "On a well resolved time axis 0, s, ... (as in C96) whose end is a double, let UncalculatedSweep be given arrays of n + 1 frequencies f and amplitudes a, and let every operation round with relative error u. The call succeeds; frequency_time and amplitude_time hold the given arrays bit by bit; the sweep has n + 1 samples, the first a_0 * sin(tht0) rounded. Sample i is within |a_i| * ((2 i + 8) u * 2 pi A + u |tht0| + 2 sigma + u) of a_i * sin(2 pi c + tht0), where c is the trapezoid sum of the frequencies up to i, A that of their absolute values and sigma the error of np.sin. get_linear_sweep(axis, fs, fe) succeeds, and its sample i is within (3 i + 37) u * 2 pi G i s + 2 sigma + u of the chirp sin(2 pi (fs t + (fe - fs) t^2 / (2 n s))) at t = i s, if |fs|, |fe| <= G. With doubles, at most 65536 samples and at most 2000 cycles of G this is below 3e-7. Arrays of k + 1 values with another k >= 1 that is resolved as well give the sweep of the stretched arrays: these have the first and the last given value at the ends of the axis and lie within 14 u times the larger value of the straight lines between the given values, placed at k + 1 points that are within 8 u M of equal steps (M bounds start and end); a single value raises ZeroDivisionError.", "quantifier": "all arrays, axes, initial phases and frequencies; every rounding of bounded relative error that leaves rounded numbers alone, in particular round to nearest double", "why_tests_cant": "tests compare a few sweeps with loose tolerances; how the rounding errors of the running phase add up needs a proof", "anchors": ["sweep_design/uncalculated_sweep.py:UncalculatedSweep.__call__", "sweep_design/uncalculated_sweep.py:UncalculatedSweep._array_tht", "sweep_design/defaults/sweep_methods.py:InterpolateArray.__call__", "sweep_design/prepared_sweeps/linear_sweep.py:get_linear_sweep", "sweep_design/utility_functions/f_t.py:f_t_linear_array"]}
{"id": "C133", "title": "Spectra in double precision", "statement": "Let a signal lie on a well resolved time axis (as in C96) with n + 1 samples, and let every operation round with relative error u, with 4 (n + 1)(n + 7) u <= 1 (the size prolonged to time zero below). get_spectrum() succeeds, without a mismatch between the number of frequencies and of spectrum samples. If the axis contains time zero the spectrum is np.fft.rfft of the samples with those before time zero moved to the end; if it begins later, of the samples behind p zeros, p being start / sample up to two thirds; if it ends earlier, of the samples before p zeros, the last of all these moved to the front, p being -end / sample up to two thirds. The frequency axis of N samples begins at 0, ends at (N // 2) / (N sample) up to a relative error 4 u and has the step 1 / (N sample) up to (N + 5) u. If each transform errs by at most eps times the norm of its exact result, a signal whose axis contains time zero, with m samples before it, returns from get_signal(time) on its axis rotated left by 2 m positions, with an error of norm at most eps (2 + eps) times the norm of the samples, and this bound is attained by some such transforms; from get_signal() a signal from time 0 returns, if the number of samples is even, with that error, the same number of samples, begin 0 and a step that is right up to 8 u. With doubles this covers 33554432 samples.", "quantifier": "all signals and well resolved axes of that size; every rounding of bounded relative error, in particular round to nearest double; all transforms of the right length, or of bounded error where eps occurs", "why_tests_cant": "whether the rounded frequency axis has as many points as the transform depends on every length and step; tests try a few", "anchors": ["sweep_design/signal.py:Signal.get_spectrum", "sweep_design/spectrum.py:Spectrum.get_signal", "sweep_design/defaults/methods.py:_calculate_spectrum", "sweep_design/defaults/methods.py:signal2spectrum", "sweep_design/defaults/methods.py:spectrum2signal", "sweep_design/axis.py:get_array_axis_from_array"]}
{"id": "C134", "title": "Whole sessions", "statement": "Let a session be any sequence of: calls of the methods and constructors of ArrayAxis, Relation, Signal, Spectrum and Sweep; making generators (UncalculatedSweep, ApriorUncalculatedSweep) and calling them; get_linear_sweep, get_shuffle, get_dwell_sweep, get_code_zinger_relation, get_relation_m_sequence, get_code_sweep_segments, get_convolution_sweep_and_code, get_correction_for_source, correct_sweep, get_IMFs_emd and get_IMFs_ceemdan; assignments to start, end and sample of axes; writing into arrays; assignments to Config and SweepConfig; some of them may raise. (a) If nobody writes into an x array, every axis there is reads like a new axis with its current start, end and sample. (b) Every object keeps its class, axis object, y array object and captured methods, every sweep its frequency and amplitude descriptions and its a-priori signal. (c) If assignments are to axes in A and writes into y arrays in Y only (arrays given as start_sequence count as written into), all other axes and arrays, and the data of the relations on them, are as before. (d) A spectrum or signal once returned by get_spectrum or get_signal is returned again, and gives back the object it was computed from, unless one of the two is asked for another frequency or time. (e) Config changes only by assignment. (f) Generators are neither lost nor exchanged; with the default methods one whose axis and arrays are outside A and Y gives the sweep it would have given at the beginning. (g) If methods of signals are called on signals and those of spectra on spectra, get_spectrum returns a Spectrum and get_signal a Signal.", "quantifier": "all sessions of any length from any objects ((a) and the start of (g): from none, or from objects in that condition); all methods in Config that change nothing but new objects, empty caches and empty counterparts, in particular the defaults", "why_tests_cant": "what an object reads as after a long mixture of library calls, generator calls, cached transforms and assignments involves every pair of functions; tests call one at a time", "anchors": ["sweep_design/relation.py:Relation.__init__", "sweep_design/axis.py:ArrayAxis.array", "sweep_design/signal.py:Signal.get_spectrum", "sweep_design/spectrum.py:Spectrum.get_signal", "sweep_design/uncalculated_sweep.py:UncalculatedSweep.__call__", "sweep_design/uncalculated_sweep.py:ApriorUncalculatedSweep.__call__", "sweep_design/prepared_sweeps/sweep_from_code.py:get_code_sweep_segments", "sweep_design/utility_functions/source_sweep_correction.py:get_correction_for_source", "sweep_design/utility_functions/emd_analyze.py:get_IMFs_emd"]}
{"id": "C135", "title": "Integer samples", "statement": "Let the samples be integers of a numpy type (a list of ints gives int64, an m-sequence int8). (a) +, -, * and ** of two relations with the same axis object give integers of the smallest type with the numbers of both types, of a relation and a Python int of the type integers of the type: numbers of that type that differ from the exact results by multiples of 2 ** bits; nothing is raised. The result agrees with exact arithmetic if and only if all exact results are numbers of the type. Where there is no such type (uint64 with a signed type) the result is exact, in floats. A Python int that is not of the type is refused by numpy 2 (TypeFuncError); numpy 1 takes a smallest type with it and the numbers of the type, or floats. (b) Among integers one negative exponent raises TypeFuncError. (c) Between relations with different axis objects, in divisions and with floats nothing wraps round. Neither does it in select_data, shift, interpolate_extrapolate, convolve, correlate, indexing, max and min. (d) diff, integrate and get_norm are exact if the differences, the sums of two neighbours, the squares and sums of two neighbouring squares are numbers of the type, in particular for samples -1, 0, 1 of a signed type. Otherwise they need not be: get_norm of the int8 samples 8, 8, 8 is -128. Without a sign diff adds 2 ** bits wherever the samples fall. (e) r + c - c gives the samples of r back whatever wraps round; sums and products on one axis commute; but (a + b) - b need not be a.", "quantifier": "all axes, all eight integer types, all integer samples and operands (Python ints from -2 ** 63 to 2 ** 64 - 1)", "why_tests_cant": "tests use floats or small integers; the sums that wrap round, and the difference between equal axes and one axis object, need particular sizes", "anchors": ["sweep_design/defaults/methods.py:math_operation", "sweep_design/relation.py:Relation.__init__", "sweep_design/relation.py:Relation.equalize", "sweep_design/relation.py:Relation.get_norm", "sweep_design/defaults/methods.py:differentiate", "sweep_design/defaults/methods.py:integrate", "sweep_design/defaults/methods.py:one_integrate", "sweep_design/defaults/methods.py:interpolate_extrapolate"]}
{"id": "C136", "title": "Relations with inf and nan", "statement": "Division by a zero sample does not raise: numpy puts inf, -inf or nan there. Let samples be floating point numbers with these special values and the sign of zero, computed without rounding. (a) +, -, *, / and their reflected forms between relations on equal axes, and with a number, never raise; each sample is the floating point result of the two samples at its place (0/0 is nan, v/0 infinite with the sign of v times the sign of that zero, inf - inf and inf * 0 nan), so special values stay at their place. (b) On other axes the operands are interpolated first, which never raises either: outside the samples the result is 0, at a sample position the sample itself, strictly between two samples it is finite if and only if both are. An axis with equal numbers changes nothing. A shift keeps every sample as it is. (c) A sample of diff is finite if and only if its two neighbours are; a sample of integrate if and only if all samples up to it are, and it is nan if and only if one of these is nan or infinities of both signs occur. (d) get_norm on a forward axis with positive sample and at least two samples is nan if and only if a sample is, otherwise inf if and only if a sample is infinite; with one sample it is 0, even if that is nan. (e) A sample of convolve or correlate is finite if and only if all samples in its sum are. (f) max and min are nan if and only if a sample is, otherwise the largest and smallest sample. (g) Exceptions of all these methods are those of finite samples on the same axes. For finite operands with finite results everything agrees with the exact model of the other properties, and where that model stops, a result with a special value is returned. The order of summation does not matter.", "quantifier": "all axes, all samples and numbers, finite or not, all operators except powers", "why_tests_cant": "tests use finite samples; where a special value spreads depends on the method, the axes and the place", "anchors": ["sweep_design/defaults/methods.py:math_operation", "sweep_design/defaults/methods.py:interpolate_extrapolate", "sweep_design/defaults/methods.py:differentiate", "sweep_design/defaults/methods.py:integrate", "sweep_design/defaults/methods.py:one_integrate", "sweep_design/defaults/methods.py:convolve", "sweep_design/defaults/methods.py:correlate", "sweep_design/relation.py:Relation.get_norm", "sweep_design/relation.py:Relation.max", "sweep_design/relation.py:Relation.min"]}
{"id": "C137", "title": "The spectrum of a resampled signal folds back", "statement": "Resampling a signal whose axis runs from a*s to b*s (whole multiples of its sample s) with interpolate_extrapolate on an axis with the sample m*s, m a whole number, that runs over every multiple of m*s within the range of the signal, keeps every m-th sample of the signal and puts zero at times outside its range. get_spectrum of the result has at its frequency f the mean of the Fourier sums of the original signal at f, f+1/(m*s), ..., f+(m-1)/(m*s). For m=2 that is the mean of the Fourier sum at f and the conjugate of the one at 1/(2*s)-f, so frequencies above 1/(4*s) fold back. For m=1 (only a longer axis) the spectrum is the Fourier sum of the original signal at the new frequencies, and at a frequency both spectra have the values are equal.", "quantifier": "all real signals on whole-multiple axes, all m, all such target axes", "why_tests_cant": "a test sees the folding for a few tones and one ratio; the law holds for every signal, ratio and offset of the axes", "anchors": ["sweep_design/relation.py:Relation.interpolate_extrapolate", "sweep_design/defaults/methods.py:interpolate_extrapolate", "sweep_design/signal.py:Signal.get_spectrum", "sweep_design/defaults/methods.py:signal2spectrum"]}
{"id": "C138", "title": "Convolving spectra is not the spectrum of a product", "statement": "Spectrum.convolve and Spectrum.correlate of two objects of any class (signals and sweeps are transformed, the numbers of a plain relation are read as a spectrum, the two may be the same object) return a new spectrum with the values and axis, or the exception, of Relation.convolve and Relation.correlate of the two spectra. For two signals with sample s whose axes, prolonged to time zero, have N points each, value k of the convolution is the sum of F(i/(N*s))*G(j/(N*s)) over i+j=k with i, j between 0 and N//2, where F and G are the Fourier sums of the signals, and it stands at the frequency (k-N//2)/(N*s). The value of the correlation at the frequency f is the sum of F(i/(N*s)+f)*conj(G(i/(N*s))) over the stored frequencies. For signals on the axis 0, s, ..., K*s, K+1 times the spectrum of their product at k/((K+1)*s) is value k of the convolution plus the products with a negative frequency, which Spectrum.convolve leaves out. With the samples 1, -1 the product has the spectrum 2, 0, and the convolution has 0 at frequency zero and 4 at half the sampling rate.", "quantifier": "all pairs of objects with fitting caches; all pairs of signals on whole-multiple axes with equal numbers of points", "why_tests_cant": "the convolution theorem suggests a wrong reading of Spectrum.convolve; tests with symmetric examples do not show which products are missing and where the values stand", "anchors": ["sweep_design/spectrum.py:Spectrum.convolve", "sweep_design/spectrum.py:Spectrum.correlate", "sweep_design/spectrum.py:_input2spectrum", "sweep_design/defaults/methods.py:convolve", "sweep_design/defaults/methods.py:correlate"]}
{"id": "C139", "title": "The spectrum of differences is off by half a sample", "statement": "For a signal on the axis a*s, (a+1)*s, ..., b*s (s>0, at least three samples): if a<0<b, or a=0 and b is odd, then get_spectrum of Relation.diff has the frequencies f=k/((b-a)*s), and its value is the Fourier sum of the differences at times half a sample earlier than those diff gives them; s times it is (e^{2 pi i f s}-1) times the Fourier sum of the signal, minus e^{-2 pi i f (a-1) s} times the first and plus e^{-2 pi i f b s} times the last sample. If a=0 and b is even, the frequencies are k/((b+1)*s), the times are half a sample later, and s times the value is (1-e^{-2 pi i f s}) times the Fourier sum of the signal minus the first plus the last sample. So the samples 0,1,0 and 0,1,0,0 (s=1) give spectra of the differences on the same frequencies that differ by a delay of one sample. For Relation.integrate, whose times are whole multiples, (1-e^{-2 pi i f s}) times the value of the spectrum is s/2*((1+e^{-2 pi i f s}) times the Fourier sum of the signal, minus e^{-2 pi i f a s} times the first and e^{-2 pi i f (b+1) s} times the last sample), minus e^{-2 pi i f (b+1) s} times the last value of the integral.", "quantifier": "all signals with at least three samples on whole-multiple axes (for diff: containing time zero and not ending there)", "why_tests_cant": "the parity effect comes from rounding half to even while padding; a test with one length shows one of the two delays", "anchors": ["sweep_design/relation.py:Relation.diff", "sweep_design/relation.py:Relation.integrate", "sweep_design/signal.py:Signal.get_spectrum", "sweep_design/defaults/methods.py:signal2spectrum", "sweep_design/defaults/methods.py:differentiate", "sweep_design/defaults/methods.py:integrate", "sweep_design/axis.py:ArrayAxis.array"]}
{"id": "C140", "title": "Printing, and looking up a complex number", "statement": "str(axis) shows start, end and sample, the number of points n+1, and the gap (end-start)/n between neighbours, which is negative for an axis running backwards; n is |(end-start)/sample| rounded half to even. For an axis of one point (n=0) it raises ValueError, for a zero sample the exception of a division by zero. str of a relation, signal, spectrum or sweep shows the samples and the text of the axis, whether or not their numbers fit, and raises what str of the axis raises. Printing fills caches but changes nothing that can be read afterwards from any object, also when it raises. r[z] with a complex number z is r[Re z]: the imaginary part has no influence.", "quantifier": "all stores with coherent caches, all axes and relations, all complex numbers", "why_tests_cant": "the one-point axis is a corner case a test of the text does not meet; that printing has no effect is a statement about every object", "anchors": ["sweep_design/axis.py:ArrayAxis.__str__", "sweep_design/relation.py:Relation.__str__", "sweep_design/axis.py:ArrayAxis.actual_sample", "sweep_design/relation.py:Relation.__getitem__"]}
{"id": "C141", "title": "In a session every relation has as many samples as its axis has points", "statement": "Let a session be as in C134, begun from no objects, in which start, end and sample are assigned only on axes on which no relation stands at that time, writes into y arrays keep the number of samples, and nobody writes into x arrays; some calls may raise. Then every Relation, Signal, Spectrum and Sweep there is at the end, whether it was made by the user, returned by a call, cached as a counterpart, stored as a description of a sweep, or left behind by a call that raised, has an axis and a y array, get_data on it returns two arrays of the same length, which is also its len, and never raises NotEqualError. One assignment to the end of an axis that carries a relation is enough to make get_data of that relation raise.", "quantifier": "all sessions of any length; all methods in Config and SweepConfig and of a-priori generators that keep relations in order in this sense, in particular the defaults", "why_tests_cant": "the constructor checks the sizes once, but the copy from a relation and deepcopy do not, and axes are shared and moved inside shift, diff, integrate and get_spectrum; that no mixture of calls leaves an unbalanced object cannot be tried out", "anchors": ["sweep_design/relation.py:Relation.__init__", "sweep_design/relation.py:Relation.get_data", "sweep_design/relation.py:Relation.shift", "sweep_design/relation.py:Relation.equalize", "sweep_design/axis.py:ArrayAxis.copy", "sweep_design/uncalculated_sweep.py:UncalculatedSweep.__call__", "sweep_design/utility_functions/source_sweep_correction.py:get_correction_for_source"]}
{"id": "C142", "title": "Powers and the exponential obey the usual laws, on one axis", "statement": "For a relation whose axis and samples agree: `r ** n` with a whole number n multiplies every sample by itself n times on the same axis and never fails, also for negative samples and zeros; `r ** -n` with n at least 1 is the reciprocal of that if no sample is zero and otherwise has a sample that is not a finite number; `r ** (1/n)` with n at least 2 is the n-th root if no sample is negative, so that raising it to n again gives r back, and otherwise has a sample that is not a finite number. For positive samples and any real exponents `(r**a) * (r**b)` is `r**(a+b)`, `(r**a) / (r**b)` is `r**(a-b)` and `(r**a)**b` is `r**(a*b)`; the last fails for negative samples, since `(r**2)**0.5` is the magnitude. `(r*q)**c` is `(r**c) * (q**c)` for positive samples, and for all samples if c is whole. For a positive number c, `c**r` never fails and `c**(r+q)` is `(c**r) * (c**q)`; `0**r` is 1 where the sample is zero and 0 where it is positive, and a negative number to the power r is its whole powers if all samples are whole, while a negative sample in the first case and one that is not whole in the second give a sample that is not a finite number; `r**q` is the exponential of q times the logarithm of r, if r is positive. `exp` keeps the axis, gives positive samples, equals `e**r`, turns `r+q` into the product of the exponentials and `r*c` into the c-th power. Whole powers, sums of exponents and the exponential of a sum also hold for complex samples. All laws about two relations need them on equal axes: on different axes `(r+q).exp()` and `r.exp() * q.exp()` differ, because a relation counts as 0 outside its axis and so does its exponential.", "quantifier": "all relations with as many samples as their axis has points; all exponents as stated", "why_tests_cant": "The cases depend on the sign of the samples and on the kind of exponent; tests check a few values of each operator and no law connecting several.", "anchors": ["sweep_design/relation.py:Relation.__pow__", "sweep_design/relation.py:Relation.__rpow__", "sweep_design/relation.py:Relation.exp", "sweep_design/defaults/methods.py:math_operation"]}
{"id": "C143", "title": "Powers and exponentials with inf and nan", "statement": "`**` and `exp` of a relation never raise because of special values (inf, -inf, nan, signed zeros), whether the exponent or the base is a number or a relation, on equal or different axes. Each sample of the result is the power of its base and exponent: 1 if the exponent is zero or the base is 1, even if the other one is nan; nan if one of them is nan or the base is a negative number and the exponent a number that is not whole; otherwise negative exactly if the base has a minus sign and the exponent is odd, and in size the limit of |x|**t for x near the base and t near the exponent, where inf stands for growing numbers and a zero for numbers tending to zero (and 1 if the base is -1 and the exponent infinite); this leaves one value only. The one exception is the number 0.5 as exponent, for which numpy takes the square root: -0.0 stays -0.0 and -inf becomes nan. The exponential of -inf is 0, of inf is inf, of nan is nan. With finite samples the results are those of C142, and where that has a sample that is not a number, the result holds inf or nan.", "quantifier": "all relations with as many samples as their axis has points, with any samples; all numbers including inf and nan", "why_tests_cant": "The special cases multiply: five kinds of base, five kinds of exponent, signs and odd exponents; the tests use none of them.", "anchors": ["sweep_design/relation.py:Relation.__pow__", "sweep_design/relation.py:Relation.__rpow__", "sweep_design/relation.py:Relation.exp", "sweep_design/defaults/methods.py:math_operation"]}
{"id": "C144", "title": "Boolean samples", "statement": "Let the samples be booleans. (a) On one axis object r + q is true where one of them is and r * q where both are; the product agrees with that of the numbers 0 and 1, the sum if and only if they are nowhere true together. r - q raises TypeFuncError, even r - r. ** and / are those of the numbers 0 and 1. (b) With a Python int or a relation of integers the booleans are the integers 0 and 1; with a Python int (int64) the result is exact if the exact results are int64 numbers. (c) With floats, and between different axis objects, the results are those of the numbers 0 and 1. (d) diff gives the height of every edge over the step, never its direction. integrate adds half a step wherever one of two neighbours is true, also where both are, so the integral of a mask is too small. get_norm is that of the numbers 0 and 1.", "quantifier": "all axes, all lists of booleans, all operations", "why_tests_cant": "tests use floats; nothing warns that a mask is not a signal of zeros and ones", "anchors": ["sweep_design/defaults/methods.py:math_operation", "sweep_design/relation.py:Relation.__init__", "sweep_design/relation.py:Relation.get_norm", "sweep_design/defaults/methods.py:differentiate", "sweep_design/defaults/methods.py:integrate"]}
{"id": "C145", "title": "A recording of several echoes and noise correlates to one peak per echo", "statement": "Let a recording on the grid of a pilot be a sum of delayed and scaled copies of the pilot, each wholly inside the recording, plus arbitrary noise. Relation.correlate(recording, pilot) then succeeds; its times are the lags (j - m)*sample, and its sample at each lag is the sum over the echoes of the factor times the pilot's own correlation moved by the delay, plus the correlation of the noise. The noise moves no sample by more than the square root of (energy of the noise times energy of the pilot), where the energy is the sum of the squares of the samples. An echo with no other one within the length of the pilot has at its own delay its factor times the pilot's energy, up to that bound. If there is one echo with factor a, and the pilot's own correlation is at most rho of its energy at some lag, the sample at that lag is smaller in absolute value than the one at the delay of the echo as soon as four times the noise energy is less than (|a|(1 - rho))^2 times the pilot's energy. Signal.correlate of signals that begin at zero gives the same.", "quantifier": "every pilot and recording on a common grid of positive step, every finite set of delays that fit, all factors (also zero and negative), every noise sequence", "why_tests_cant": "The sums over echoes and the bounds for the noise range over all recordings and noise sequences; a test sees a few of them, and a worst-case noise is hardly ever drawn.", "anchors": ["sweep_design/relation.py:Relation.correlate", "sweep_design/signal.py:Signal.correlate", "sweep_design/defaults/methods.py:correlate"]}
{"id": "C146", "title": "Spectra of signals whose axis runs backwards", "statement": "Let a signal stand on the axis a*s, (a-1)*s, ..., b*s, s > 0, a and b whole, b < a. The sample of such an axis may be s, or -s as in an axis made from a falling array. If a > 0, get_spectrum fills up with zeros as if the axis began at zero and still ended at b*s; for this there is room only if a <= 2*b. If a <= 0 it fills up to time zero behind the samples, which needs 2*a <= b. Without room get_spectrum raises ValueError. Otherwise the samples are transformed as if they were played forwards, on the axis from (2*b-a)*s to b*s if a > 0 and from a*s to (2*a-b)*s if not: with the sample s the result is get_spectrum of that signal, whatever frequency argument is given; with the sample -s it is the same spectrum at the opposite frequencies 0, -1/(N*s), ... (with N*s the length filled up), unless an axis of frequencies is given. So each value is e^{-2 pi i f*2*c}, with c = b*s if a > 0 and c = a*s otherwise, times the conjugate of the Fourier sum of the signal at f = k/(N*s); only the amplitudes are those of the signal.", "quantifier": "all signals with as many samples as their axis has points, on backward axes at whole multiples of the step, both signs of the sample, all frequency arguments", "why_tests_cant": "Tests use forward axes; the mirrored times show only when phases on a backward axis are compared with a sum over the signal's own times.", "anchors": ["sweep_design/defaults/methods.py:signal2spectrum", "sweep_design/signal.py:Signal.get_spectrum", "sweep_design/axis.py:ArrayAxis"]}
{"id": "C147", "title": "Relations on backward axes lose samples", "statement": "For relations whose axes run backwards over whole steps of one size s (sample s or -s). (a) r1 + r2, r1 - r2, r1 * r2 of two such relations on one grid live on the axis from the smaller of the two starts to the larger of the two ends: where the axes overlap the result holds the operation on the samples of both at each common point, and the samples of either relation outside the overlap are lost instead of being combined with zero. (b) If one relation lies entirely after the other, the axis of the result runs forwards over the gap between them; of the sum only two samples are left, the first of the earlier relation and the last of the later one, with zeros between, and the product is zero everywhere. (c) convolve and correlate of relations with n1+1 and n2+1 samples cut both to the first m+1 samples, m the smaller of n1 and n2, and return the convolution or correlation of these on the axis from +m*s down to -m*s. (d) select_data() without bounds raises IndexError; with only a lower bound it returns just the last sample, with only an upper bound just the first, or raises IndexError if the bound excludes that sample.", "quantifier": "all relations on backward axes with a whole number of steps of common size, all values, both signs of the sample, all bounds", "why_tests_cant": "all positions, lengths, values and bounds", "anchors": ["sweep_design/relation.py:Relation.equalize", "sweep_design/relation.py:Relation.select_data", "sweep_design/relation.py:Relation.convolve", "sweep_design/relation.py:Relation.correlate", "sweep_design/defaults/methods.py:get_common_x"]}
{"id": "C148", "title": "Axes of complex numbers", "statement": "ArrayAxis(start, end, sample) with complex numbers and a non-zero sample has round(|(end - start) / sample|) + 1 points in equal steps on the straight line from start to end, beginning with start and (unless there is only one) ending with end. get_array_axis_from_array on complex numbers in equal steps gives back exactly these points and, unlike for real numbers, the unrounded step; for any other array of at least two complex numbers start and end are its first and last number and sample is the least difference of neighbours (real part first, then imaginary part), shorter arrays raise ValueError. r[z] gives the point nearest to z in the plane (the first of several) with its value; select_data gives exactly the points between the bounds in numpy's order (real part first, then imaginary part), with their values and the same sample, or IndexError when there are none. When sample points along the line, Relation on such an axis is a relation on a real axis laid along the line: get_data, items, shift (along the line or off it), arithmetic with numbers, arrays and relations on the same axis object, and get_norm give the same values, integrate multiplies them by the direction, diff divides by it; when the direction is to the right or straight up, select_data, interpolation, arithmetic between relations of at least two points on different axes of the line, convolution and correlation are the real ones too, provided the axis numbers are numpy's. With Python complex numbers in both axes, operations between relations on different axis objects raise TypeError. A sample in another direction is accepted, but diff and integrate can fail then and the norm becomes complex.", "quantifier": "for all complex axes, all relations with complex values on them, all lines and directions, all operands", "why_tests_cant": "tests/test_axis.py checks the first and the last point of one complex axis; no test makes a relation on one, and the order of complex numbers, the direction of the sample and the type of the numbers decide what happens.", "anchors": ["sweep_design/axis.py:ArrayAxis.array", "sweep_design/axis.py:get_array_axis_from_array", "sweep_design/axis.py:get_actual_sample", "sweep_design/relation.py:Relation.select_data", "sweep_design/relation.py:Relation.equalize", "sweep_design/relation.py:Relation.__getitem__", "sweep_design/relation.py:Relation.get_norm", "sweep_design/defaults/methods.py:get_common_x"]}
{"id": "C149", "title": "Signals and sweeps with complex samples", "statement": "get_spectrum of a Signal with complex samples is the spectrum of the signal of their real parts, for every axis and every argument (and raises when that raises): numpy's rfft drops imaginary parts. On an axis of whole steps the value at f is the Fourier sum of the real parts over the times of the signal. Signal to spectrum and back on the own time axis starting at 0 returns the real parts; it returns the signal itself exactly when all samples are real. add_phase, sub_phase, shift (also by 0), get_reverse_signal, Signal.convolve and Signal.correlate give what they give for the real parts, and arithmetic of a Spectrum with such a signal does not see imaginary parts; Relation.correlate on the same samples multiplies with the complex conjugates: for the samples i, 2i the relation gives 2, 5, 2 and the signal 0, 0, 0. Under the default configuration a Sweep with complex samples raises ValueError unless both frequency_time and amplitude_time are given; so no operator makes a sweep from a sweep and a complex operand, and sweep * (1+0j) raises ValueError. With both given and at least two samples it raises ZeroDivisionError if 2 m sample <= m - 1, where m is the smaller of the number of samples and 256 (any sample up to 1/4); otherwise, from five samples on, it is made with a frequency axis of the single point 0 beside an image of m rows.", "quantifier": "all real axes, all lists of complex samples, all arguments of get_spectrum, shifts, percentages, windows and operands; for the sweeps all constructor arguments", "why_tests_cant": "The constructors document complex numbers as allowed, and a test with one complex array sees no exception; that nothing but the real parts ever matters, and that complex sweeps fail for every usual sampling rate, are statements about all inputs.", "anchors": ["sweep_design/signal.py:Signal.get_spectrum", "sweep_design/signal.py:Signal.shift", "sweep_design/signal.py:Signal.correlate", "sweep_design/defaults/methods.py:_calculate_spectrum", "sweep_design/defaults/methods.py:signal2spectrum", "sweep_design/sweep.py:Sweep", "sweep_design/sweep.py:_get_spectrogram", "sweep_design/defaults/sweep_methods.py:get_f_t", "sweep_design/defaults/sweep_methods.py:get_spectrogram", "sweep_design/axis.py:get_array_axis_from_array"]}
{"id": "C150", "title": "Samples given as a row, a column or a table", "statement": "Relation accepts samples of any shape whose number of entries is the size of the axis, in particular a row (shape (1, n)), a column (shape (n, 1)) and a table (shape (m, k) with m k = n). A row: integrate, diff, exp, shift, arithmetic with numbers and, from two samples on, interpolation and arithmetic with rows or with ordinary samples give the row of the ordinary result; a row of one sample is interpolated to nan although the sample alone is found again; the norm is an array with the ordinary norm; but with two or more samples select_data and slices raise IndexError, r[v] gives the whole row if the first position is a nearest one and raises IndexError otherwise, convolve and correlate raise ValueError. A column: exp, shift, arithmetic with numbers, select_data, slices and arithmetic of two columns on one axis object give the column of the ordinary result, r[v] an array with the ordinary value; but with two or more samples arithmetic on two axis objects, convolve and correlate raise ValueError, with ordinary samples on one axis object addition, subtraction and multiplication raise NotEqualError(n, n*n), the norm raises ValueError from three samples on and is two zeros for two samples. A table with two or more rows, so also a column, cannot be integrated, differentiated (NotEqualError) or interpolated (ValueError); with two or more columns nothing can be selected (IndexError). max and min are those of all entries. A Signal with a column has the spectrum of the samples; with a row it has it if all times are positive or all negative and is_start_zero is not set, otherwise, with two or more samples, get_spectrum raises IndexError.", "quantifier": "all axes and lists of samples, all borders, shifts, numbers, operators and positions; calculus of tables on axes of a whole number of positive steps", "why_tests_cant": "A test with one shape and one method sees either a usable result or an exception; which methods work for which shape, and that where they work the numbers are the ordinary ones, is a statement about all inputs.", "anchors": ["sweep_design/relation.py:Relation", "sweep_design/relation.py:Relation.select_data", "sweep_design/relation.py:Relation.integrate", "sweep_design/relation.py:Relation.diff", "sweep_design/relation.py:Relation.interpolate_extrapolate", "sweep_design/relation.py:Relation.equalize", "sweep_design/relation.py:Relation.get_norm", "sweep_design/relation.py:Relation.convolve", "sweep_design/relation.py:Relation.__getitem__", "sweep_design/defaults/methods.py:math_operation", "sweep_design/defaults/methods.py:signal2spectrum"]}
{"id": "C151", "title": "Small errors in the samples stay small", "statement": "Two relations on one axis whose corresponding samples differ by at most d (balanced, samples real numbers). Whatever succeeds for the first succeeds for the second, on the same axis: resampling onto any axis, select_data and shift give values that differ by at most d; item access takes the same position and a value within d; max and min move by at most d; the k-th value of integrate moves by at most (k+1)|sample| d, the whole integral by at most |stop-start| d, and diff by at most 2d/|sample|. Sums and differences of two such pairs, on any axes, move by at most d1+d2, products by at most A d2 + B d1 + d1 d2 where A and B bound the samples, convolution and correlation by n times that with n points on the common axis. Adding or subtracting a number, or subtracting the record from it, keeps d, multiplying by c gives |c| d, dividing by c (not 0) gives d/|c|, and c divided by the record moves by at most |c| d/(m(m-d)) if all samples are at least m > d in absolute value; without such an m there is no bound at all. The spectrum and the amplitude spectrum of a Signal move by at most the number of samples times d.", "quantifier": "all pairs of relations on all axes, all error bounds, all arguments; the spectrum for increasing axes and two or more samples", "why_tests_cant": "A test compares one pair; a bound that holds for every record, and the absence of any bound for division, cannot be observed on examples.", "anchors": ["sweep_design/relation.py:Relation.interpolate_extrapolate", "sweep_design/relation.py:Relation.select_data", "sweep_design/relation.py:Relation.shift", "sweep_design/relation.py:Relation.integrate", "sweep_design/relation.py:Relation.diff", "sweep_design/relation.py:Relation.convolve", "sweep_design/relation.py:Relation.correlate", "sweep_design/relation.py:Relation.max", "sweep_design/relation.py:Relation.min", "sweep_design/relation.py:Relation.__getitem__", "sweep_design/defaults/methods.py:math_operation", "sweep_design/defaults/methods.py:one_integrate", "sweep_design/signal.py:Signal.get_spectrum", "sweep_design/signal.py:Signal.get_amplitude_spectrum"]}
{"id": "C152", "title": "Repeating the soft clip", "statement": "With a positive limit and a percentage that is not negative, n calls of soft_clip in a row with coefficient c give exactly the array that one call with coefficient c*n gives. So the force made in pass number n of the loop of get_correction_for_source is the second column of one soft_clip with coefficient coefficient_function(n)*n, which is n*n for the default coefficient function. Over the passes of the default loop rows with |first| <= limit*percent and rows exactly at the limit never change, rows beyond both go to zero, and rows strictly between limit*percent and limit whose second entry is not zero grow beyond every bound.", "quantifier": "all arrays, positive limits, percentages that are not negative, coefficients and numbers of passes", "why_tests_cant": "The growth is a statement about the limit over all passes; a test with the default ten passes and one signal sees only some numbers.", "anchors": ["sweep_design/utility_functions/source_sweep_correction.py:soft_clip", "sweep_design/utility_functions/source_sweep_correction.py:get_correction_for_source"]}
{"id": "C153", "title": "A relation shifted there and back does not cancel the original", "statement": "In double precision, r.shift(a).shift(-a) has the samples of r, and its ends are within 3 u (M + |a|) of those of r (u = 2^-53, M a bound for the ends, the step being at least 256 u (M + |a|)); an end returns exactly if the shifted end is representable. If an end does not return exactly, r - r.shift(a).shift(-a) has there the whole sample instead of zero (with a minus sign if the returned end lies outside), while inside its values are of the size of rounding errors, and the quotient divides by zero if the returned relation is the shorter one at an end. Samples at 0.3, 0.4, 0.5 shifted by 0.1 and back are such a case: the first end moves by 2^-54.", "quantifier": "all relations of at least two samples whose end is within a sixteenth of a step of a whole number of steps and whose step is not lost in rounding, all shifts, any rounding with relative error u that keeps its own results", "why_tests_cant": "Whether an end returns depends on the last bit of the numbers; tests with integer or binary fractions always cancel exactly.", "anchors": ["sweep_design/relation.py:Relation.shift", "sweep_design/relation.py:Relation.equalize", "sweep_design/relation.py:Relation.interpolate_extrapolate", "sweep_design/defaults/methods.py:get_common_x", "sweep_design/defaults/methods.py:interpolate_extrapolate"]}
{"id": "C154", "title": "Convolution and correlation can lose the last sample of an operand", "statement": "In double precision, for two relations with the same step and number of samples, convolve and correlate move both to start at zero; if the computed lengths end - start then differ (by a rounding), the last sample of the operand with the smaller one is replaced by zero before the products are formed, the other samples change by rounding errors only, and the result is the sum of products of these samples up to 2(n+1) unit roundoffs of the sum of absolute values. So the last value of such a convolution is zero, and the first or the last value of such a correlation is zero. Example: samples 1, 1, 1 at 0.3, 0.4, 0.5 and at 0.1, 0.2, 0.3 give the convolution 1, 2, 2, 1, 0 instead of 1, 2, 3, 2, 1.", "quantifier": "all pairs of relations of n + 1 samples with equal step, ends within a sixteenth of a step of a whole number of steps, step at least 384 u M, computed lengths at most a sixteenth of a step apart; any rounding with relative error u; any order of summation", "why_tests_cant": "It depends on the last bit of a difference of axis ends; tests use integer or equal axes.", "anchors": ["sweep_design/relation.py:Relation.convolve", "sweep_design/relation.py:Relation.correlate", "sweep_design/relation.py:Relation.shift", "sweep_design/defaults/methods.py:convolve", "sweep_design/defaults/methods.py:correlate", "sweep_design/defaults/methods.py:get_common_x"]}
{"id": "C155", "title": "A signal and what its spectrum gives back end at different times", "statement": "In double precision, for a signal with an even number of samples from time 0, get_spectrum().get_signal() has as many samples, but the end of its axis, computed from the frequencies, can differ from the end of the signal by roundings (at most 10 n u steps, besides what the end deviates from n steps). Whatever the samples, arithmetic of the two then takes the common axis, on which the one that ends earlier has zero instead of its last sample while the other samples change only a little. For every signal at 0, 0.1, 0.2, 0.3 and whatever the errors of the transforms the returned signal ends at 0.30000000000000004; with samples 1, 2, 3, 4 on both axes the difference is -4 at the end.", "quantifier": "all signals from time 0 with n + 1 samples, n odd, on well resolved axes whose end is within 1/32 of a step of n steps, 1024 n u <= 1 and 4 (n+1)(n+7) u <= 1; all transforms with a bounded error; any rounding with relative error u", "why_tests_cant": "It depends on the last bit of a product; tests compare samples, not ends of axes, or choose binary fractions.", "anchors": ["sweep_design/signal.py:Signal.get_spectrum", "sweep_design/spectrum.py:Spectrum.get_signal", "sweep_design/defaults/methods.py:spectrum2signal", "sweep_design/relation.py:Relation.equalize", "sweep_design/defaults/methods.py:get_common_x"]}
{"id": "C156", "title": "Reading a record backwards", "statement": "The reversal of a relation is the relation with the samples in the opposite order on ArrayAxis(-end, -start, sample); its axis has equally many points, namely the negated ones (unless the axis is a single point with different start and end). Reversing commutes with get_data, select_data (bounds negated and exchanged), shift (the other way), interpolation onto the reversed axis, arithmetic with numbers and arithmetic between relations on one axis object or on any two axes, and with convolve and correlate of two relations of the same length and sample; an operation raises on the reversed operands exactly when it raises on the given ones. r[-v] on the reversal is the same sample, the last one instead of the first if several are nearest. diff changes the sign; integrate gives at each point the integral over the rest, so that value and rest make up the whole; the whole integral, get_norm, max and min stay. Correlation with q is convolution with the conjugate of q reversed. The spectrum of the reversed signal on an axis of whole steps has conjugate values. Convolution of operands of different lengths does not commute with reversal: the shorter one is lengthened at its end.", "quantifier": "all relations and axes whose last point is their end (also axes that run backwards), all operands, bounds, shifts, operations; the spectrum for real signals of at least two samples on whole steps", "why_tests_cant": "no test reverses anything; the rounding of the number of points, the first of several nearest samples, the padding in convolve and the half sample in diff all distinguish the two directions in the code", "anchors": ["sweep_design/axis.py:ArrayAxis.array", "sweep_design/relation.py:Relation.select_data", "sweep_design/relation.py:Relation.shift", "sweep_design/relation.py:Relation.interpolate_extrapolate", "sweep_design/relation.py:Relation.equalize", "sweep_design/relation.py:Relation.diff", "sweep_design/relation.py:Relation.integrate", "sweep_design/relation.py:Relation.get_norm", "sweep_design/relation.py:Relation.convolve", "sweep_design/relation.py:Relation.correlate", "sweep_design/relation.py:Relation.__getitem__", "sweep_design/signal.py:Signal.get_spectrum"]}
{"id": "C157", "title": "Many small shifts and one large shift do not reach the same axis", "statement": "In double precision, shifting a relation by a1, then a2, .., then ak keeps its samples, its step and its number of points, and leaves each end within 2 k u B of its exact place (u = 2^-53, B a bound for the ends plus the sum of the |ai|, the step being at least 64 (k + 4) u B). One shift by the whole amount c gives ends within d = (2 k + 1) u B + |c - (a1 + .. + ak)| of those. If an end differs at all, the difference of the two relations has there the whole sample (with a minus sign if only the second one reaches it) while inside its values are at most 6 (d + 32 u B) / step times the largest jump between neighbours plus 42 u times the largest sample, and the quotient divides by zero if the divisor is the one that falls short. Samples at 0, 0.1, 0.2 shifted ten times by 0.1 and once by 1 are such a case: the first starts at 1 - 2^-53.", "quantifier": "all relations of at least two samples whose end is within a sixteenth of a step of a whole number of steps and whose step is not lost in rounding, all lists of shifts, all total amounts, any rounding with relative error u that keeps its own results", "why_tests_cant": "Whether the accumulated end agrees depends on the last bits; tests with integers or binary fractions always agree, and a test of one shift cannot show the drift.", "anchors": ["sweep_design/relation.py:Relation.shift", "sweep_design/relation.py:Relation.equalize", "sweep_design/relation.py:Relation.interpolate_extrapolate", "sweep_design/defaults/methods.py:get_common_x", "sweep_design/defaults/methods.py:interpolate_extrapolate"]}
{"id": "C158", "title": "What the spectrogram of complex samples shows", "statement": "The default spectrogram method applied to complex samples (at least one, sample not zero) gives an image of m rows, m the smaller of the number of samples and 256, and one column for each segment of m samples (overlapping by m // 8) that fits; the frequencies are k/(m sample) for 2k < m and (k - m)/(m sample) for the others, and the entry in row k, counted from the lower edge, is the two-sided power density of the segment, windowed after removal of its complex mean, at frequency number k. For 3 to 256 samples of a complex oscillation with k0 periods over the record, 0 < k0 < n, the entry of row k0 is strictly the largest. If all imaginary parts are zero, the times are those of the real samples, the row of frequency number k <= m/2, counted from the lower edge, is the row k of the real image divided by 2, except row 0 and, for even m, row m/2, which are equal, and row m - k equals row k. Complex conjugate samples have the same times and frequencies, the same row 0, and row m - k is row k of the original. Adding a constant to all samples changes nothing; a factor c multiplies the image by |c|^2, so a phase changes nothing. If the step has been set to zero, the method raises ZeroDivisionError for complex as for real samples.", "quantifier": "all real axes with a step that is not zero, all non-empty lists of complex samples, all constants and factors", "why_tests_cant": "One image has thousands of entries; that its upper half carries information only for samples that are not real, and which symmetries hold exactly, is a statement about all inputs.", "anchors": ["sweep_design/defaults/sweep_methods.py:get_spectrogram", "sweep_design/sweep.py:Sweep"]}
{"id": "C159", "title": "Sine waves through diff, integrate, get_norm and resampling", "statement": "Let a relation hold samples of A sin(w t + p) on k >= 1 whole steps s > 0 from a to b. diff succeeds and holds, at its own times, 2/s sin(w s/2) A cos(w t + p) (the derivative has w instead of the factor). integrate succeeds and holds s/2 cot(w s/2) (A cos(w a + p) - A cos(w t + p)), and one_integrate gives this for t = b; if the sample is a whole number of periods (cot does not exist) both are A sin(w a + p)(t - a). If k >= 2, diff of the integral holds cos(w s/2) A sin(w t + p): the wave back, smaller. Interpolated half way between two samples, the wave is multiplied by cos(w s/2) too. get_norm is A^2/2 (k - cot(w s)/2 (sin(2(w b + p)) - sin(2(w a + p)))), so k A^2/2 over a whole number of half periods whatever the phase; if the sample is a whole number of half periods it is k (A sin(w a + p))^2. For the sine of the tutorial (1 Hz, 10 s, 1000 samples per second) get_norm is 5000, as printed there.", "quantifier": "all amplitudes, frequencies (also above half the sampling frequency), phases, axes of whole steps and, for resampling, all target axes", "why_tests_cant": "A test has one frequency and a tolerance that hides these factors.", "anchors": ["sweep_design/relation.py:Relation.diff", "sweep_design/relation.py:Relation.integrate", "sweep_design/relation.py:Relation.get_norm", "sweep_design/relation.py:Relation.interpolate_extrapolate", "sweep_design/defaults/methods.py:one_integrate", "sweep_design/defaults/methods.py:integrate", "sweep_design/defaults/methods.py:differentiate"]}
{"id": "C160", "title": "The spectrum of a sine wave of any frequency", "statement": "Let a signal hold samples of A sin(w t + p) at n = k+1 >= 2 times that are whole multiples of the sample s > 0, from a to b, and let D(u) = sin(n u)/sin(u) (a sum of n cosines, n at u = 0, never more than n in modulus). Signal.get_spectrum has the frequencies f = i/(N s), N the number of times prolonged to contain 0, and with c = (a+b)/2 its value at f is A/(2i) exp(-2 pi i f c) (exp(i(w c + p)) D((w - 2 pi f) s/2) - exp(-i(w c + p)) D((w + 2 pi f) s/2)). The square of get_amplitude_spectrum is A^2/4 (D-^2 + D+^2 - 2 D- D+ cos(w(a+b) + 2p)), so the amplitude differs from |A D-|/2 by at most |A D+|/2. If time 0 is among the times and both sines in the denominators are not zero, the amplitude differs from |A sin(n w s/2)| / (2 |sin((w - 2 pi f) s/2)|) by at most |A sin(n w s/2)| / (2 |sin((w + 2 pi f) s/2)|). For the sum of sin(2 pi t) and 0.1 sin(40 pi t) on ArrayAxis(0, 10, 0.001), as in the tutorial, neither 1 Hz nor 20 Hz is among the frequencies, but the amplitude is at least 4990 at 10/10.001 Hz, at least 490 at 200/10.001 Hz, and at most 40 at every other of the 5001 frequencies.", "quantifier": "All amplitudes, angular frequencies, phases, samples, axes of whole multiples of the sample, all frequencies of the spectrum", "why_tests_cant": "Tests take frequencies that fit the number of samples, or look at plots; the leakage of every frequency into every other one is a statement about all real frequencies", "anchors": ["sweep_design/signal.py:Signal.get_spectrum", "sweep_design/signal.py:Signal.get_amplitude_spectrum", "sweep_design/defaults/methods.py:signal2spectrum", "sweep_design/spectrum.py:Spectrum.get_amp_spectrum"]}
{"id": "C161", "title": "Convolution, correlation and spectrum as integrals", "statement": "Let relations hold samples of functions f and g with a common sample s > 0 on axes from a1 to b1 and from a2 to b2 of k1 and k2 >= 1 whole samples; |f| <= M1, |g| <= M2, and f and g change by at most L1 and L2 per unit. Relation.convolve succeeds with 2 max(k1, k2) + 1 values on an axis from -max(k1, k2) s with the sample s. Value k is 0 if k > k1 + k2; otherwise, with T = a1 + a2 + k s, s times the value differs from the integral of f(t) g(T - t) over the times t at which both are given by at most (M1 L2 + M2 L1) s/2 times the length of this range, plus M1 M2 s. The same holds for the value of Relation.correlate at the lag l s of its axis (l between -k2 and k1, the others are 0) and the integral of f(t + d) g(t), d = a1 - a2 + l s. If a1 is a multiple of s, s times the value of Signal.get_spectrum at the frequency F differs from the integral of f(t) exp(-2 pi i F t) over the axis by at most (L1 + 2 pi F M1) s (b1 - a1)/2 + M1 s. The middle value of the convolution of the triangle and the rectangle of the tutorial is within 2 of 1000, the integral being 1.", "quantifier": "All functions with a bound and a bounded rate of change, all axes of whole samples with a common sample, all values of the results, all frequencies", "why_tests_cant": "Tests compare sums with sums; that the sums converge to integrals, at which rate, and that they lack the factor s, concerns all functions and all samples", "anchors": ["sweep_design/relation.py:Relation.convolve", "sweep_design/relation.py:Relation.correlate", "sweep_design/defaults/methods.py:convolve", "sweep_design/defaults/methods.py:correlate", "sweep_design/signal.py:Signal.get_spectrum", "sweep_design/defaults/methods.py:signal2spectrum"]}
{"id": "C162", "title": "The energy of a linear sweep is half its number of steps", "statement": "For a time axis that starts at 0 and has k >= 1 steps of length s > 0 with k*s = T, positive frequencies f_start and f_end in either order and no taper, a sweep returned by get_linear_sweep has a norm, and it differs from k/2 by at most 1/(4 pi f_min s) + (2 pi |f_end - f_start| / T + 8 pi^2 f_max^2) s T / 12, where f_min and f_max are the smaller and the larger of the two frequencies: up to the ends at the lowest frequency and the error of the trapezoids at the highest, the energy is that of a constant tone of amplitude one.", "quantifier": "all such axes and all positive frequencies", "why_tests_cant": "A test takes one sweep and one tolerance; that the deviation from half the duration is controlled by the lowest frequency at the ends and by the highest through the sample for every sweep is a statement about all parameters.", "anchors": ["sweep_design/prepared_sweeps/linear_sweep.py:get_linear_sweep", "sweep_design/relation.py:Relation.get_norm"]}
{"id": "C163", "title": "The norm and the correlation at lag zero", "statement": "Let relations with real samples have axes of k steps of one positive sample. Relation.correlate(r1, r2)[0.0] is the position 0 with the sum of the products of the samples. For r1 = r2 = r this is get_norm(r) plus half the squares of the first and the last sample, and no value of the autocorrelation is larger in absolute value. On equal axes the norms of r1 + r2 and r1 - r2 add up to twice the sum of the norms of r1 and r2, and they differ by four times the value at lag zero less twice the products of the first and of the last samples. So the autocorrelation of a sweep of get_linear_sweep under the conditions of C162 has a peak at lag zero that differs from k/2 by at most the bound of C162 plus one.", "quantifier": "all such relations, all positive frequencies", "why_tests_cant": "The relation between three methods of the interface holds for all samples and lengths; a test sees one sweep and one tolerance, and does not tell the trapezoids of get_norm from the plain sum of correlate.", "anchors": ["sweep_design/relation.py:Relation.correlate", "sweep_design/relation.py:Relation.__getitem__", "sweep_design/relation.py:Relation.get_norm", "sweep_design/relation.py:Relation.__add__", "sweep_design/relation.py:Relation.__sub__", "sweep_design/prepared_sweeps/linear_sweep.py:get_linear_sweep"]}
{"id": "C164", "title": "The texts of the exceptions, and copies of them", "statement": "A Relation whose n axis points do not fit its m samples raises NotEqualError with the text 'Different size x_array(n) and y_array(m)', n and m in decimal notation; no other pair of sizes gives the same text. A ConvertingError reads 'Can not convert type T into type U.' with both types. A TypeFuncError reads 'operation \"op\" did not complete with type', op being the name of the operation without underscores: the text ends there and is the same for all operands; the ten operations have ten different texts. Copying or unpickling a NotEqualError or a ConvertingError raises IndexError; the copy of a TypeFuncError has another text, in which its text takes the place of the name of the operation; a BadInputError with one text is copied as it is.", "quantifier": "all sizes, all operations, all types of operands, all texts", "why_tests_cant": "That the text does not depend on the types of the operands and that sizes can be read off the text are statements about all of them; the tests look at the class of an exception only and never copy one.", "anchors": ["sweep_design/exc.py:NotEqualError", "sweep_design/exc.py:ConvertingError", "sweep_design/exc.py:TypeFuncError", "sweep_design/exc.py:BadInputError", "sweep_design/defaults/methods.py:math_operation", "sweep_design/relation.py:Relation"]}
{"id": "C165", "title": "Which versions of numpy the package can be imported with", "statement": "Importing the package with the release a.b.c of numpy takes ArrayLike from numpy.typing from 1.20 on and uses Any up to 1.19.0; with 1.19.1 and every later release of 1.19 the import fails, because numpy.typing is asked for and does not exist there. pyproject.toml excludes these releases for Python below 3.8 but allows them from Python 3.8 on; among the allowed releases no others fail.", "quantifier": "all releases of three numbers, all minor versions of Python 3", "why_tests_cant": "The requirements files lock 1.19.0 and 1.23.4, and no test chooses another version; which of all allowed releases fail is a statement about the comparison of versions.", "anchors": ["sweep_design/help_types.py:get_type"]}
{"id": "C166", "title": "What a taper takes from a linear sweep", "statement": "For one time axis from 0 with k >= 1 steps of length s > 0, one pair of frequencies and a taper tt >= 0, compare the sweeps of get_linear_sweep without taper and with time_tapper=tt. No sample of the tapered sweep is larger in absolute value or has the opposite sign; samples later than tt after the start and earlier than tt before the end are the same. The norm of the tapered sweep is at most that of the other, and smaller by at most 2 (tt/s + 1).", "quantifier": "all such axes, all frequencies (also zero and negative ones), all tapers that are not negative, also longer than the sweep", "why_tests_cant": "The tests compare no tapered linear sweep with an untapered one; that energy is never added and that the loss is bounded by the number of samples in the tapers holds for all frequencies and lengths.", "anchors": ["sweep_design/prepared_sweeps/linear_sweep.py:get_linear_sweep", "sweep_design/utility_functions/a_t.py:tukey_a_t", "sweep_design/relation.py:Relation.get_norm"]}
{"id": "C167", "title": "A full m-sequence has the same amplitude at every frequency", "statement": "The squares of the amplitudes get_amplitude_spectrum gives for a signal of N >= 2 samples at whole multiples of a positive step, whose axis contains zero, are the sums over d of the correlation of the samples with themselves moved round by d places, times cos(2 pi d k / N). A signal of the 2^k - 1 signs get_m_sequence_code(L, is_full=True) * 2 - 1 with k = ceil(log2(L-1)) from 2 to 32 therefore has the amplitude 1 at frequency zero and the amplitude sqrt(2^k) at every other frequency, whatever the random start. A signal of the signs of get_m_sequence_code(n + 1) on an axis of n points, 1 <= n <= 2^32, as the documentation makes one, can be made if and only if n is not a power of two (with an exact logarithm; C117 says what a floating point one changes).", "quantifier": "all signals on axes that contain zero; all code lengths up to 2^32 and all random starts; all axes", "why_tests_cant": "The tests make two short random codes and look at no spectrum of them; flatness is a statement about every start and every length, and failing exactly at the powers of two about all lengths.", "anchors": ["sweep_design/signal.py:Signal.get_amplitude_spectrum", "sweep_design/prepared_sweeps/code_m_sequence.py:get_m_sequence_code", "sweep_design/relation.py:Relation.__init__"]}
{"id": "C168", "title": "The energies of harmonics add", "statement": "The norm get_norm gives for the samples of a sum of sine waves A_m sin(2 pi m t / T + p_m) over a set of whole numbers m, on k whole steps with T = k sample, is k / 2 times the sum of the A_m^2, whatever the phases and the start, if every m is at least 1 and less than k / 2. Above k / 2 this fails: the waves of m and of k - m cycles from time zero cancel, and the norm of their sum is 0.", "quantifier": "all finite sets of harmonics, amplitudes, phases, starts and steps", "why_tests_cant": "A test adds a few waves on one axis; that the trapezoids keep harmonics apart exactly, up to half the number of steps and not beyond, is a statement about all sets of harmonics.", "anchors": ["sweep_design/relation.py:Relation.get_norm", "sweep_design/defaults/methods.py:one_integrate"]}
{"id": "C169", "title": "A repeated code is heard at the frequencies of one period only", "statement": "A signal of the N p values get_code_zinger(code, p) of a code of N >= 2 numbers, at whole multiples of a positive step on an axis that contains zero, has by get_amplitude_spectrum the amplitude zero at every frequency whose number is not a multiple of p. The frequency number p l is the frequency number l of the signal of one period, on any such axis with the same step, and the amplitude there is p times as large.", "quantifier": "all codes, numbers of periods, steps and axes that contain zero", "why_tests_cant": "The tests look at no spectrum of a code; silence between the lines is a statement about all codes.", "anchors": ["sweep_design/prepared_sweeps/code_zinger.py:get_code_zinger", "sweep_design/signal.py:Signal.get_amplitude_spectrum"]}
{"id": "C170", "title": "Sweeps that differ in the amplitude description only", "statement": "Two UncalculatedSweep with the same time and the same frequency description, called with the same time and initial phase, give sweeps with one time axis and one frequency_time, whose samples are their amplitude_time samples times one common sequence. If the amplitude of the second is nowhere larger in absolute value, no sample of it is larger in absolute value, and on a rising axis its get_norm is not larger. So a taper on get_shuffle, on an axis of whole steps from zero and with the same outcome of the shuffle, multiplies every sample by a number from 0 to 1, and by 1 where both ends are further away than the taper, and does not raise the norm. On such an axis get_shuffle returns a sweep for every taper when its frequency description has at least two values.", "quantifier": "all times, frequency and amplitude descriptions, initial phases; for get_shuffle all bands, segment lengths, roundings, tapers and outcomes of the shuffle", "why_tests_cant": "The tests check of a shuffle sweep only that it is a Sweep; two sweeps with different amplitudes are never compared, and the outcome of the shuffle is random.", "anchors": ["sweep_design/uncalculated_sweep.py:UncalculatedSweep.__call__", "sweep_design/prepared_sweeps/pseudorandom_shuffle.py:get_shuffle", "sweep_design/relation.py:Relation.get_norm"]}
{"id": "C171", "title": "Sweeps add as their amplitudes do", "statement": "The time and the frequency description of an UncalculatedSweep together with the time and the initial phase of the call fix the time axis and one sequence of numbers, and every sweep made from them with any amplitude description is its amplitude_time samples times this sequence. So if the amplitude of one sweep is the sum of the amplitudes of two others, its axis and samples are those of the sum (+) of the two sweeps. In particular for amplitudes given as arrays with as many values as a time axis that starts at zero the sweeps add as the arrays, and an array times a number gives the samples times that number.", "quantifier": "all times, frequency and amplitude descriptions, initial phases, arrays and numbers", "why_tests_cant": "The tests add no sweeps that an UncalculatedSweep returned and compare no two amplitude descriptions; linearity is a statement about all of them.", "anchors": ["sweep_design/uncalculated_sweep.py:UncalculatedSweep.__call__", "sweep_design/relation.py:Relation.__add__"]}
