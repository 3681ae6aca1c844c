{"id": "C01", "title": "fixed_vector behaves as a bounded sequence", "statement": "After any history of constructing, push_back, pop_back, clear, assign, resize(count,value), insert, erase and element assignment, each within its documented range, a fixed_vector<T,N> holds exactly the sequence an ordinary growable vector would hold, its size never exceeds N, and no call reads or writes outside its N slots; a call that would exceed N is rejected by the assertion and never corrupts memory.", "quantifier": "every capacity N, element type with memmove-style copying, and every finite history of operations", "why_tests_cant": "the number of histories is unbounded; a test fixes a few", "anchors": ["ristra/utils/fixed_vector.h: fixed_vector::push_back,pop_back,clear,assign,resize,insert,erase,swap"]}
{"id": "C02", "title": "fixed_vector insert shifts the tail intact", "statement": "insert(pos, value) puts value before pos and keeps every element that was already there, in order, for every element type the container accepts.", "quantifier": "every content, position, and element type, trivially copyable or not", "why_tests_cant": "correctness depends on the copy direction chosen by the library for T and on how many elements are shifted", "anchors": ["ristra/utils/fixed_vector.h: fixed_vector::insert"]}
{"id": "C03", "title": "fixed_vector erase", "statement": "erase(pos) removes exactly that element, erase(first,last) removes exactly that range, the rest keeps its order, and the iterator returned addresses the element that followed the removed part.", "quantifier": "every content, position and sub-range including empty ones", "why_tests_cant": "all positions and lengths", "anchors": ["ristra/utils/fixed_vector.h: fixed_vector::erase"]}
{"id": "C04", "title": "fixed_vector equality is equality of contents", "statement": "a == b holds exactly when a and b hold the same sequence; in particular == is symmetric and vectors of different size are unequal.", "quantifier": "every pair of fixed_vectors, including stale values beyond the size", "why_tests_cant": "depends on leftovers of earlier operations in unused slots", "anchors": ["ristra/utils/fixed_vector.h: operator==, operator!="]}
{"id": "C05", "title": "bounds-checked access", "statement": "at(i) on fixed_vector, array_ref, math array, const_string and multi_array returns the i-th element for every i inside the size and throws out_of_range for every i outside; it never reads outside the container.", "quantifier": "every content and every index, negative ones converted to unsigned included", "why_tests_cant": "unbounded index range", "anchors": ["ristra/utils/fixed_vector.h: at", "ristra/utils/array_ref.h: at", "ristra/math/array.h: at", "ristra/math/multi_array.h: at, check_ranges", "ristra/utils/const_string.h: operator[]"]}
{"id": "C06", "title": "array_ref views stay inside what they view", "statement": "substr(pos,n), remove_prefix, remove_suffix, pop_front and pop_back yield exactly the addressed contiguous part of the viewed sequence (clamped at the end for substr); composing them never escapes the original range and never copies or changes elements.", "quantifier": "every viewed sequence, every position and count, every chain of operations", "why_tests_cant": "arbitrary compositions of narrowing operations", "anchors": ["ristra/utils/array_ref.h: substr, remove_prefix, remove_suffix, pop_front, pop_back, vec, str"]}
{"id": "C07", "title": "filter_iterator visits exactly the matching elements", "statement": "Incrementing a filter_iterator from begin until it equals end visits exactly the elements satisfying the predicate, once each, in order.", "quantifier": "every sequence and predicate", "why_tests_cant": "unbounded sequences and predicates; termination", "anchors": ["ristra/utils/filter_iterator.h: operator++"]}
{"id": "C08", "title": "zip iterates in lockstep", "statement": "Iterating zip(r0,...,rk) yields in order the tuples (r0[i],...,rk[i]) for i from 0 to the shortest length, never dereferences a range past its end, and rejects ranges of unequal length.", "quantifier": "every number of ranges and every combination of lengths", "why_tests_cant": "arity and lengths are unbounded", "anchors": ["ristra/utils/zip.h: zip", "ristra/utils/zip_impl.h: zipper, not_equal_tuples, increment", "ristra/utils/tasks.h: simple_task"]}
{"id": "C09", "title": "unsorted_set_intersection", "statement": "The result is sorted, and contains each value exactly min(multiplicity in a, multiplicity in b) times; inputs are unchanged and their order is irrelevant.", "quantifier": "every pair of finite sequences over a totally ordered element type", "why_tests_cant": "all permutations and multiplicities", "anchors": ["ristra/utils/algorithm.h: unsorted_set_intersection"]}
{"id": "C10", "title": "remove_duplicates removes every duplicate", "statement": "After remove_duplicates(v) each value that was in v appears exactly once, and first occurrences keep their relative order.", "quantifier": "every sequence", "why_tests_cant": "all arrangements of duplicates", "anchors": ["ristra/utils/algorithm.h: remove_duplicates"]}
{"id": "C11", "title": "replace_all terminates with the left-to-right replacement", "statement": "replace_all(s, from, to) returns s with every left-to-right non-overlapping occurrence of from replaced by to, and always terminates.", "quantifier": "every triple of strings, including to containing from and empty from", "why_tests_cant": "non-termination cannot be observed by a finite test", "anchors": ["ristra/utils/string_utils.h: replace_all"]}
{"id": "C12", "title": "path splitting round trips", "statement": "basename(p) contains no '/', is the part of p after the last '/'; the extension of the file name and the remaining path recombine to p, and a file name without a dot has an empty extension and is unchanged by remove_extension.", "quantifier": "every path string, including dots in directory names", "why_tests_cant": "unbounded strings", "anchors": ["ristra/utils/string_utils.h: basename, file_extension, remove_extension, split_extension"]}
{"id": "C13", "title": "split tokenises on the given delimiters", "statement": "split(s, delims) returns in order the maximal non-empty runs of characters of s that are not delimiters, and nothing else splits the text.", "quantifier": "every string and delimiter set", "why_tests_cant": "all strings and delimiter sets", "anchors": ["ristra/utils/string_utils.h: split"]}
{"id": "C14", "title": "zero padding preserves the number", "statement": "zero_padded(n, w) has length max(w, digits of n), reads back as n, and padded numbers of equal width order lexicographically as the numbers do; num_digits(n) is the number of characters of the decimal form.", "quantifier": "every non-negative integer and width", "why_tests_cant": "unbounded integers", "anchors": ["ristra/utils/string_utils.h: num_digits, zero_padded"]}
{"id": "C15", "title": "duration decomposition is exact and canonical", "statement": "The printed days, hours, minutes and seconds satisfy 86400d+3600h+60m+s = t with 0<=h<24, 0<=m<60, 0<=s<60, and this decomposition is unique.", "quantifier": "every non-negative integral duration", "why_tests_cant": "unbounded range", "anchors": ["ristra/utils/time_utils.h: daysHoursMinutesSeconds"]}
{"id": "C16", "title": "compound assignment accepts an alias of itself", "statement": "For arrays and dimensioned arrays, x op= y, x op= x and x op= x[k] all give the elementwise result computed from the values before the call.", "quantifier": "every array, operator and alias pattern", "why_tests_cant": "aliasing combinations interact with loop order", "anchors": ["ristra/utils/dimensioned_array.h: operator+=,-=,*=,/=", "ristra/math/array.h: operator+=,-=,*=,/="]}
{"id": "C17", "title": "scalar division divides each element", "statement": "a / s and a /= s give an array whose i-th element is a[i] / s, for every element type the template accepts.", "quantifier": "every array, non-zero scalar and element type including integers", "why_tests_cant": "type-dependent rounding", "anchors": ["ristra/math/array.h: operator/=, operator/", "ristra/math/multi_array.h: operator/=, operator/"]}
{"id": "C18", "title": "array comparisons are a total order", "statement": "For arrays over a totally ordered element type: == is elementwise equality, exactly one of a<b, a==b, b<a holds, < is transitive and lexicographic, and <=,>,>=,!= are consistent with it.", "quantifier": "every pair and triple of arrays", "why_tests_cant": "transitivity and trichotomy range over all triples", "anchors": ["ristra/math/array.h: operator==,<,>,<=,>=,!="]}
{"id": "C19", "title": "elementwise array arithmetic", "statement": "Sum, difference, product, quotient with an array or a scalar on either side act elementwise; addition and scaling obey the vector-space laws.", "quantifier": "all arrays and scalars over a field", "why_tests_cant": "algebraic laws over all values", "anchors": ["ristra/math/array.h: operator+,-,*,/", "ristra/math/multi_array.h", "ristra/math/tuple.h"]}
{"id": "C20", "title": "multi_array indexing is a bijection", "statement": "For every shape, (i0,...,ik) maps in row-major order one-to-one onto the storage positions 0..elements-1: in-range indices never collide, never leave the storage and cover all of it.", "quantifier": "every rank, every dimension vector and every in-range index tuple", "why_tests_cant": "shapes are unbounded", "anchors": ["ristra/math/multi_array.h: row_major_ordering, element, operator()"]}
{"id": "C21", "title": "column-major ordering is a bijection", "statement": "The column-major ordering maps in-range index tuples one-to-one onto 0..elements-1 with the first index fastest.", "quantifier": "every rank and dimension vector", "why_tests_cant": "shapes are unbounded", "anchors": ["ristra/math/multi_array.h: col_major_ordering"]}
{"id": "C22", "title": "determinant", "statement": "determinant(A) is the determinant of A: multiplicative, alternating and multilinear in rows, unchanged by transposition.", "quantifier": "every square size D and every matrix (exact arithmetic)", "why_tests_cant": "all sizes and entries", "anchors": ["ristra/math/matrix.h: determinant, cofactor"]}
{"id": "C23", "title": "inverse and solve", "statement": "If determinant(A) is non-zero then A*inverse(A) and inverse(A)*A are the identity and A*solve(A,b)=b, uniquely; each specialised size agrees with the general formula.", "quantifier": "every size D>=1 and every non-singular matrix (exact arithmetic)", "why_tests_cant": "all sizes and entries", "anchors": ["ristra/math/matrix.h: inverse, solve"]}
{"id": "C24", "title": "matrix and vector products", "statement": "matrix*matrix and matrix*vector are the usual products (associative, distributive, identity-neutral, transposition reverses); in-place versions add the product to the destination; ax_plus_y gives Ax+y.", "quantifier": "all compatible sizes and entries", "why_tests_cant": "all sizes", "anchors": ["ristra/math/matrix.h: matrix_multiply, operator*, ax_plus_y, identity_matrix, transpose, outer_product"]}
{"id": "C25", "title": "matrix_vector computes alpha*A*x + beta*y", "statement": "matrix_vector(alpha,A,x,beta,y) leaves alpha*A*x+beta*y in y.", "quantifier": "all sizes, scalars and entries", "why_tests_cant": "the defect depends on the number of columns and beta", "anchors": ["ristra/math/matrix.h: matrix_vector"]}
{"id": "C26", "title": "reflection, projection and rotation matrices", "statement": "For a unit normal n, the reflection matrix is symmetric, orthogonal, its own inverse, negates n and fixes the plane; the projection matrix is symmetric, idempotent, kills n and fixes the plane; a (2D) rotation matrix is orthogonal with determinant 1, turns the first axis by its angle and composes by adding angles.", "quantifier": "every unit vector, angle and dimension (exact arithmetic)", "why_tests_cant": "continuum of inputs", "anchors": ["ristra/math/matrix.h: reflection_matrix, projection_matrix, rotation_matrix", "ristra/math/vector.h: reflect"]}
{"id": "C27", "title": "matrix norms are norms", "statement": "infinity_norm, one_norm and two_norm are non-negative, vanish only on the zero matrix, are absolutely homogeneous, satisfy the triangle inequality and are submultiplicative; one_norm(A)=infinity_norm(A^T).", "quantifier": "every size and matrix", "why_tests_cant": "inequalities over all inputs", "anchors": ["ristra/math/matrix.h: infinity_norm, one_norm, two_norm"]}
{"id": "C28", "title": "matrix exponential", "statement": "exponential(A)*exponential(-A) is the identity whenever the approximant's denominators are invertible, exponential(A) commutes with A, and exponential(0) is the identity.", "quantifier": "every size and matrix", "why_tests_cant": "continuum of inputs", "anchors": ["ristra/math/matrix.h: exponential"]}
{"id": "C29", "title": "trace, transpose and double-dot product", "statement": "trace is linear and trace(AB)=trace(BA); transpose is an involution; doubledot_product(A,B)=trace(A^T B), symmetric and bilinear, and two_norm(A)^2 = doubledot_product(A,A).", "quantifier": "every size and matrix", "why_tests_cant": "all sizes", "anchors": ["ristra/math/matrix.h: trace, transpose, doubledot_product"]}
{"id": "C30", "title": "dot, cross, triple products and normals", "statement": "dot is symmetric and bilinear; the cross product is orthogonal to both factors, anticommutative and satisfies Lagrange's identity; the triple product is the determinant of the three vectors; normal(a,b) in 2D is orthogonal to b-a-like edges.", "quantifier": "all vectors", "why_tests_cant": "continuum of inputs", "anchors": ["ristra/math/general.h: dot_product, cross_product, triple_product, normal, magnitude"]}
{"id": "C31", "title": "averages and extrema", "statement": "average of any non-empty list or argument pack is the sum divided by the count and lies between the least and greatest element; min_element/max_element return an element bounding all others; elementwise min/max of two containers of any supported kind give elementwise results.", "quantifier": "every non-empty list; every container type", "why_tests_cant": "all lengths", "anchors": ["ristra/math/general.h: average, min_element, max_element, min, max", "ristra/math/general_impl.h"]}
{"id": "C32", "title": "unit vectors and reflection of vectors", "statement": "unit(v) has magnitude one and is parallel to v for every non-zero v; reflecting v about a unit normal twice gives v back, preserves magnitude and flips the normal component.", "quantifier": "all vectors of every dimension", "why_tests_cant": "continuum of inputs", "anchors": ["ristra/math/general.h: unit, magnitude, delta_magnitude", "ristra/math/vector.h: reflect"]}
{"id": "C33", "title": "polygon area", "statement": "The area of a 2D polygon is invariant under translation, cyclic renumbering and reversal of its vertices, scales quadratically, equals the triangle formula for three points, and is additive when a polygon is cut along a diagonal (as signed area before the absolute value).", "quantifier": "every number of vertices and every coordinate list", "why_tests_cant": "all vertex counts", "anchors": ["ristra/geometry/shapes/polygon.h: polygon<2>::area", "ristra/geometry/area.h: area_2d", "ristra/geometry/shapes/triangle.h: area"]}
{"id": "C34", "title": "polygon centroid", "statement": "The centroid of a 2D polygon with non-zero signed area moves with translations and scalings of the polygon, does not depend on which vertex comes first or on orientation, and is the vertex mean for triangles and parallelograms.", "quantifier": "every vertex count and coordinates with non-zero signed area", "why_tests_cant": "all vertex counts", "anchors": ["ristra/geometry/shapes/polygon.h: polygon<2>::centroid", "ristra/geometry/centroid.h"]}
{"id": "C35", "title": "3D polygon normal and area", "statement": "The normal of a 3D polygon is translation invariant, independent of the starting vertex, flips when the vertex order is reversed, and for a planar polygon is orthogonal to every edge; every formula applies to all polygons with at least three vertices.", "quantifier": "every vertex count and coordinates", "why_tests_cant": "all vertex counts", "anchors": ["ristra/geometry/shapes/polygon.h: polygon<3>::normal, area, centroid", "ristra/geometry/shapes/triangle.h: normal"]}
{"id": "C36", "title": "tetrahedron volume and centroid", "statement": "The volume of a tetrahedron is non-negative, translation invariant, invariant under every permutation of its vertices, scales with |det| under linear maps and vanishes exactly for coplanar vertices; its midpoint/centroid is the vertex mean and is equivariant.", "quantifier": "all vertex coordinates", "why_tests_cant": "continuum of inputs", "anchors": ["ristra/geometry/shapes/tetrahedron.h: volume, centroid, midpoint"]}
{"id": "C37", "title": "hexahedron volume and centroid", "statement": "The volume of a hexahedron is translation invariant and equals |det| of the edge vectors for every parallelepiped; more generally it is the volume enclosed by its faces. Its centroid is translation equivariant and is the vertex mean for parallelepipeds.", "quantifier": "all vertex coordinates", "why_tests_cant": "continuum of inputs", "anchors": ["ristra/geometry/shapes/hexahedron.h: volume, centroid, midpoint"]}
{"id": "C38", "title": "polyhedron volume and centroid", "statement": "For a closed polyhedron given by consistently oriented faces, the volume and centroid do not depend on the origin, on the order in which faces are inserted, or on the starting vertex of each face; for a tetrahedron given by its four faces the volume equals the tetrahedron formula.", "quantifier": "every number of faces and vertices per face", "why_tests_cant": "all face lists", "anchors": ["ristra/geometry/shapes/polyhedron.h: insert, volume, centroid, midpoint"]}
{"id": "C39", "title": "array_view strides and linearisation", "statement": "For every bounds vector, strides are the row-major strides, linearize maps contained indices one-to-one onto 0..size-1 in lexicographic order, and a view never addresses outside its data.", "quantifier": "every rank and bounds", "why_tests_cant": "shapes are unbounded", "anchors": ["ristra/utils/array_view.h: make_strides, linearize, contiguous_bounds, strided_bounds, contains, size, total_size"]}
{"id": "C40", "title": "bounds_iterator enumerates every index once", "statement": "Iterating a bounds object from begin to end visits each contained index exactly once in lexicographic order and takes exactly size() steps; -- undoes ++; it + n equals n increments; difference of iterators counts steps.", "quantifier": "every rank and bounds, including zero extents", "why_tests_cant": "all shapes", "anchors": ["ristra/utils/array_view.h: bounds_iterator::operator++, operator--, operator+=, operator-, begin, end"]}
{"id": "C41", "title": "slices and sections of views", "statement": "view[i] and section(origin,bounds) address exactly the elements origin+idx of the parent for contained idx; a section of a section is the section at the summed origin; no section addresses outside the parent.", "quantifier": "every view, origin and bounds accepted, every nesting", "why_tests_cant": "arbitrary nesting", "anchors": ["ristra/utils/array_view.h: slice, section, operator[]"]}
{"id": "C42", "title": "multi-dimensional index comparisons", "statement": "The comparison operators on indices are consistent: == is an equivalence, < is a strict order, <= means < or ==, and > and >= are their converses.", "quantifier": "every rank and pair/triple of indices", "why_tests_cant": "all triples", "anchors": ["ristra/utils/array_view.h: index_t::operator<,<=,>,>=,=="]}
{"id": "C43", "title": "view emptiness, checked access and equality", "statement": "empty() is true exactly for a view of no elements; at(idx) returns the element or throws out_of_range that the caller can catch; two views compare equal exactly when they have the same bounds and the same elements.", "quantifier": "every view and index", "why_tests_cant": "depends on data pointer, bounds and strides", "anchors": ["ristra/utils/array_view.h: empty, at, operator=="]}
{"id": "C44", "title": "CAS-loop updates are linearizable", "statement": "Under the strong and weak schemes each update atomically replaces the value v by op(v): in every interleaving, the final value is the initial one with all completed updates applied one after another in some order consistent with real time, no update is lost or applied twice, and each returned value is the one its own update produced.", "quantifier": "any number of threads, any programs, any schedule, any spurious failures", "why_tests_cant": "schedules are unbounded", "anchors": ["ristra/atomics/src/atomics.h: apply (strong, weak, pun variants), update"]}
{"id": "C45", "title": "CAS loops are lock-free", "statement": "A strong compare-exchange attempt fails only if another thread completed an update since this thread's last read; so in every schedule the number of failed strong attempts is bounded by the number of completed updates times the number of threads.", "quantifier": "any number of threads and schedule", "why_tests_cant": "progress over infinite schedules", "anchors": ["ristra/atomics/src/atomics.h: apply (strong)"]}
{"id": "C46", "title": "lock scheme is mutually exclusive", "statement": "Under the lock scheme updates to atomics of one type never overlap and the result is a serial execution of all updates.", "quantifier": "any number of threads and schedule", "why_tests_cant": "schedules are unbounded", "anchors": ["ristra/atomics/src/atomics.h: apply (lock), singleton_mutex"]}
{"id": "C47", "title": "native-atomic operations return the updated value", "statement": "Under the native (cpp) scheme x += v atomically adds and returns the value that addition produced.", "quantifier": "any number of threads and schedule", "why_tests_cant": "needs an adversarial schedule between two instructions", "anchors": ["ristra/atomics/src/atomics-macro-class.h: cpp operator()", "ristra/atomics/src/atomics-macro-class-prepost.h"]}
{"id": "C48", "title": "schemes agree and can be mixed", "statement": "The final value does not depend on which scheme each update of the same atomic uses, even when different threads use different schemes.", "quantifier": "any mix of schemes, threads and schedule", "why_tests_cant": "adversarial schedules", "anchors": ["ristra/atomics/src/atomics.h: apply, get_scheme, schemes"]}
{"id": "C49", "title": "atomic min and max", "statement": "Concurrent min/max updates converge to the extremum of the initial value and all arguments, whatever the schedule; the stored value changes monotonically.", "quantifier": "any number of threads, arguments and schedule", "why_tests_cant": "all interleavings", "anchors": ["ristra/atomics/src/atomics.h: mineq, maxeq, min, max"]}
{"id": "C50", "title": "input resolution priority", "statement": "Resolving a registered target yields the Lua value if the Lua source provides one, else the hard-coded default, else it is reported unresolved; targets are independent of registration order.", "quantifier": "every set of targets, every source content and order of registration", "why_tests_cant": "all combinations and histories", "anchors": ["ristra/initialization/input_engine.h: resolve_inputs, resolve_inputs_, register_target", "ristra/initialization/input_source.h: get_value"]}
{"id": "C51", "title": "resolve reports success truthfully", "statement": "resolve_inputs() returns true exactly when every registered target of every type has a value, and after that get_value of any registered target returns its resolved value without throwing; get_value of anything else throws.", "quantifier": "every history of registrations, source loads, resolves and clears", "why_tests_cant": "histories are unbounded", "anchors": ["ristra/initialization/input_engine.h: resolve_inputs, get_value, resolved, failed targets"]}
{"id": "C52", "title": "resolving is repeatable", "statement": "Calling resolve_inputs() again without changing sources leaves all resolved values as they were; after replacing a hard-coded value, the next resolve returns the new one.", "quantifier": "every history of resolves", "why_tests_cant": "needs repeated resolution of movable values", "anchors": ["ristra/initialization/input_source.h: hard_coded_source_t::get_value", "ristra/initialization/input_engine.h: resolve_inputs_ (std::function)"]}
{"id": "C53", "title": "qualified names identify inputs", "statement": "Two init_values (or registered parameters) with different namespace or name never share a registry entry.", "quantifier": "all namespaces and names", "why_tests_cant": "all string pairs", "anchors": ["ristra/initialization/init_value.h: full_name", "ristra/initialization/input.h: register_parameter"]}
{"id": "C54", "title": "init_value status", "statement": "valid() reports the predicate of the resolved value, caching does not change the answer, get() returns the registry value and never yields a value before resolution.", "quantifier": "every history of calls on an init_value", "why_tests_cant": "call histories are unbounded", "anchors": ["ristra/initialization/init_value.h"]}
{"id": "C55", "title": "Lua calls leave the stack balanced", "statement": "Every get, call, field access and conversion leaves the Lua stack exactly as it found it, whether it succeeds or throws.", "quantifier": "every stack content, nesting and result count", "why_tests_cant": "arbitrary nesting and error points", "anchors": ["ristra/embedded/embed_lua.h: lua_value::get, lua_result_t, operator[], operator()"]}
{"id": "C56", "title": "Lua multiple results arrive in order", "statement": "A Lua function returning (v1,...,vn) converts to a C++ tuple (v1,...,vn) in the same order, for every n; a count mismatch is an error.", "quantifier": "every number and kind of results", "why_tests_cant": "arity is unbounded", "anchors": ["ristra/embedded/embed_lua.h: lua_result_t::operator(), push_all, get_results"]}
{"id": "C57", "title": "Lua container conversions round trip", "statement": "A scalar pushed to Lua reads back as the same value; a Lua table of values of the element type reads as the vector, array or matrix with exactly those elements in that order, at any nesting; reading a table of the wrong length into a fixed-size array is an error; an array argument passes its elements as consecutive arguments.", "quantifier": "every length and content", "why_tests_cant": "all lengths", "anchors": ["ristra/embedded/embed_lua.h: lua_push, lua_value<vector>, lua_value<array>, matrix"]}
{"id": "C58", "title": "assertion macros act exactly on failure", "statement": "Each design-by-contract check returns its condition and runs the configured action exactly when the condition is false; disabling checks never changes the value of a condition expression.", "quantifier": "all operands and configurations", "why_tests_cant": "all operand values", "anchors": ["ristra/assertions/dbc.h"]}
{"id": "C59", "title": "shape functions form a partition of unity", "statement": "For every element type the basis values at any reference point sum to one and the partial derivatives sum to zero.", "quantifier": "every reference point, every element (QuadN, HexN: every order)", "why_tests_cant": "continuum of points, unbounded order", "anchors": ["ristra/elements/elements.cc: *::basis, *::partial_*_shape_fcn"]}
{"id": "C60", "title": "shape functions interpolate nodes", "statement": "Each basis function is one at its own node and zero at all others; mapping a node's reference position gives that node's physical position.", "quantifier": "every element, node and vertex coordinates", "why_tests_cant": "all coordinates", "anchors": ["ristra/elements/elements.cc: *::basis, *::physical_position, ref_vert"]}
{"id": "C61", "title": "shape function partials are derivatives", "statement": "partial_xi/eta/mu/tau are the partial derivatives of the corresponding basis functions.", "quantifier": "every element, node and reference point", "why_tests_cant": "continuum of points", "anchors": ["ristra/elements/elements.cc: *::partial_xi_shape_fcn, partial_eta, partial_mu, partial_tau"]}
{"id": "C62", "title": "isoparametric map reproduces affine fields", "statement": "If vertices are the image of the reference nodes under an affine map then physical_position is that affine map at every reference point, and the Jacobian is its constant matrix.", "quantifier": "every element, affine map and point", "why_tests_cant": "continuum", "anchors": ["ristra/elements/elements.cc: physical_position, jacobian"]}
{"id": "C63", "title": "Jacobian determinant and inverse", "statement": "jacobian() returns the matrix of partial derivatives and its determinant in 2D, 3D and 4D; multiplying it by the result of jacobian_inverse_* gives the identity whenever the determinant is non-zero.", "quantifier": "all entries", "why_tests_cant": "a wrong term is visible only for some matrices", "anchors": ["ristra/elements/elements.cc: jacobian, jacobian4D, jacobian_inverse_2d, jacobian_inverse_3d, jacobian_inverse_4d"]}
{"id": "C64", "title": "Lagrange interpolation of any order", "statement": "For distinct nodes, lagrange_1D returns at any point the Lagrange basis polynomials and their derivatives: they interpolate, sum to one, and reproduce every polynomial of degree <= order and its derivative.", "quantifier": "every order, every distinct node set, every point", "why_tests_cant": "unbounded order", "anchors": ["ristra/elements/elements.cc: QuadN::lagrange_1D, HexN::lagrange_1D"]}
{"id": "C65", "title": "Chebyshev node sets are valid", "statement": "chebyshev_nodes_1D yields order+1 strictly increasing nodes from -1 to 1 for every order >= 1.", "quantifier": "every order", "why_tests_cant": "unbounded order", "anchors": ["ristra/elements/elements.cc: chebyshev_nodes_1D"]}
{"id": "C66", "title": "tensor-product elements of any order", "statement": "basis_partials fills nodes, basis and partials so that the basis interpolates at the tensor grid nodes, sums to one, the partials are the derivatives, and physical_position maps reference points through them in every coordinate; corners picks the geometric corners.", "quantifier": "every order, node set and point", "why_tests_cant": "unbounded order", "anchors": ["ristra/elements/elements.cc: QuadN::basis_partials, HexN::basis_partials, physical_position, corners"]}
{"id": "C67", "title": "quadrature rules are exact", "statement": "The p-point Gauss rule integrates every polynomial of degree <= 2p-1 over [-1,1] exactly (to the precision of the tabulated constants), the p-point Lobatto rule every polynomial of degree <= 2p-3, weights sum to the measure and are positive; 2D/3D/4D rules are tensor products visiting every point pair once.", "quantifier": "every supported p and every polynomial of the stated degree", "why_tests_cant": "all polynomials", "anchors": ["ristra/elements/elements.cc: LineGaussRuleInfo, LineLobattoRuleInfo, Gauss2D, Gauss3D, Gauss4D, Lobatto2D, Lobatto3D, Lobatto4D"]}
{"id": "C68", "title": "tuple traversal order and coverage", "statement": "tuple_for_each, tuple_visit, static_for and tuple zipping call the functor exactly once for each index, in increasing order.", "quantifier": "every tuple size and functor", "why_tests_cant": "arity is unbounded", "anchors": ["ristra/utils/tuple_for_each.h", "ristra/utils/tuple_visit.h", "ristra/utils/static_for.h", "ristra/utils/template_helpers.h"]}
{"id": "C69", "title": "trivial strings round trip", "statement": "Storing a string in a fixed-size trivial string and reading it back gives the same string whenever it fits; longer strings are rejected and character access never leaves the buffer.", "quantifier": "every string and capacity", "why_tests_cant": "all lengths and contents", "anchors": ["ristra/utils/trivial_string.h: to_trivial_string, str, operator[]"]}
{"id": "C70", "title": "encoded parameter defaults", "statement": "Registering a parameter stores its default under its own key: reading that key back gives the value registered for that key, whatever else has been registered; a registered group has the title registered for it.", "quantifier": "every history of registrations and every type of default", "why_tests_cant": "histories are unbounded", "anchors": ["ristra/initialization/input.h: register_parameter, register_group"]}
{"id": "C71", "title": "Lua table and value registration", "statement": "register_value makes later lookups of that key read the given table under the given Lua name and changes no other key; register_table makes the named table available, under the Lua name given if there is one, and a second registration replaces the first, as its return value says.", "quantifier": "every source state and key", "why_tests_cant": "histories of registrations are unbounded", "anchors": ["ristra/initialization/input_source.h: register_value, register_table, load_table"]}
{"id": "C72", "title": "fixed-order elements reproduce their polynomials", "statement": "If the nodes of an element carry the values of a polynomial of total degree at most the order of the element (1 for the 4/8-node, 2 for the 8/20-node, 3 for the 12/32-node elements), the mapped position at any reference point is the value of that polynomial, and the coded partials differentiate it exactly.", "quantifier": "every polynomial, element and reference point", "why_tests_cant": "all polynomials and points", "anchors": ["ristra/elements/elements.cc: *::physical_position, *::basis, *::partial_*_shape_fcn"]}
{"id": "C73", "title": "Lua absent values fall back to the default", "statement": "Converting a Lua result with a default gives the default exactly when the value is absent (nil), and otherwise the same as converting without one; accessing an absent entry without default is an error.", "quantifier": "every Lua value and default", "why_tests_cant": "all values", "anchors": ["ristra/embedded/embed_lua.h: lua_result_t::as(def), lua_try_access_as"]}
{"id": "C74", "title": "Lua references keep their value alive", "statement": "A reference to a Lua value gives that value as long as any copy of the reference exists, whatever other references are created, copied, moved or destroyed, and the registry entry is released exactly when the last copy goes.", "quantifier": "every sequence of creations, copies, moves and destructions", "why_tests_cant": "histories are unbounded", "anchors": ["ristra/embedded/embed_lua.h: lua_ref_t, make_lua_ref"]}
{"id": "C75", "title": "build options select the assertion behaviour", "statement": "The documented options choose whether the precondition checks are on and whether a failed check throws, prints or does nothing; a failed Insist is always reported.", "quantifier": "every combination of option values", "why_tests_cant": "combinations of build options are not run", "anchors": ["CMakeLists.txt: RISTRA_DBC_ACTION, RISTRA_DBC_REQUIRE", "ristra/ristra-config.h.in", "ristra/assertions/dbc.h"]}
{"id": "C76", "title": "tuple arithmetic is element by element", "statement": "The operators + - * / on tuples and scalars give the tuple of the element results, each converted to its element type; the assignment forms replace every element by the result of the operation on the original operands and change nothing else; fill sets every element; the printed form determines the elements.", "quantifier": "every number and mixture of element types, every operation and operands that may share objects", "why_tests_cant": "arity, types and aliasing are unbounded", "anchors": ["ristra/math/tuple.h: plus_equal, minus_equal, multiplies_equal, divides_equal, operator+ - * /, fill, operator<<"]}
{"id": "C77", "title": "scripts are found beside the input file", "statement": "The list of visualisation scripts named in an input file is returned in order, each name placed in the directory of the input file; replacing text in a string replaces its first occurrence and leaves a string without it alone.", "quantifier": "every input path, list of names and string", "why_tests_cant": "all paths and strings", "anchors": ["ristra/io/catalyst/utils/catalystUtils.hpp: getCatalystScripts, replaceInString"]}
{"id": "C78", "title": "file and image comparison", "statement": "compareFiles is true exactly for two readable files with the same bytes; imageCompare is true exactly for images of one shape that differ in less than two percent of their bytes, in either order.", "quantifier": "every pair of files and images", "why_tests_cant": "all contents and sizes", "anchors": ["ristra/io/catalyst/utils/catalystUtils.hpp: compareFiles, imageCompare"]}
{"id": "C79", "title": "interval timers", "statement": "A timer reports the time from its last start to its last stop, whatever other timers do in between, and says so when it was not started or not stopped.", "quantifier": "every history of any number of timers", "why_tests_cant": "histories are unbounded", "anchors": ["ristra/io/catalyst/utils/insituTimer.hpp: start, stop, getDuration"]}
{"id": "C80", "title": "exported grids hold the points and cells given", "statement": "Whatever the calls that add points and cells, the exported grid holds exactly those points and cells in order, every cell refers to existing points and has a type; reset empties it.", "quantifier": "every sequence of calls", "why_tests_cant": "sequences are unbounded", "anchors": ["ristra/io/catalyst/vtk/unstructuredGrid.h: addPoint, insertNextPoint(s), setPoints, pushPointsToGrid, insertNextCell, reset"]}
{"id": "C81", "title": "exported vector and tensor data", "statement": "Vector and tensor data attached to a grid appear under their name as one tuple for each element, with component n of element i equal to data[n][i], on points or cells as asked, and other arrays are left alone.", "quantifier": "every number of components and elements", "why_tests_cant": "sizes are unbounded", "anchors": ["ristra/io/catalyst/vtk/unstructuredGrid.h: setVectorData, setTensorData, addVectorData"]}
{"id": "C82", "title": "exported meshes are the mesh", "statement": "The exported grid has one point for each vertex at the vertex's number with its coordinates, and one polyhedron for each (owned) cell whose faces are oriented consistently: the two cells of a face see it in opposite order.", "quantifier": "every mesh", "why_tests_cant": "meshes are unbounded", "anchors": ["ristra/io/catalyst/flecsale_unstructuredGrid.h: writePointsToGrid, writeCellsToGrid, createMesh"]}
{"id": "C83", "title": "the Python interface keeps counts and errors clean", "statement": "Each function that hands out a Python object hands out one reference and keeps none, a failing call throws, leaves no Python error pending and no object unreleased, and a function is called with exactly the arguments given.", "quantifier": "every interpreter state and answer", "why_tests_cant": "reference leaks do not show in results", "anchors": ["ristra/embedded/embed_python.h"]}
{"id": "C84", "title": "error macros are statements", "statement": "A use of an error, assertion or warning macro followed by a semicolon acts as one statement wherever a statement may stand.", "quantifier": "every program around the macro", "why_tests_cant": "the compiler accepts the wrong reading silently", "anchors": ["ristra/assertions/errors.h"]}
{"id": "C85", "title": "command line option registry", "statement": "All options registered under a group are offered, in order of registration, and the group shows its caption; the result does not depend on the order in which different groups are registered; reading a variable gives its value if it was given and the default otherwise; a parse error is reported by the flag.", "quantifier": "every sequence of registrations, every command line", "why_tests_cant": "initialisation order and histories are unbounded", "anchors": ["ristra/initialization/arguments.h"]}
{"id": "C86", "title": "floating point results are close to the exact ones", "statement": "Dot products, averages, lengths and distances, cross and triple products, matrix products, traces and determinants, areas and volumes computed with rounding differ from the exact result by a small multiple of the unit roundoff times the size of the quantities involved: components for algebra, edges of the shape for areas and volumes.", "quantifier": "every number of components, every operands, every rounding with a relative error bound", "why_tests_cant": "tests compare a few values with a tolerance", "anchors": ["ristra/math/general.h", "ristra/math/matrix.h", "ristra/math/vector.h", "ristra/geometry/shapes/triangle.h", "ristra/geometry/shapes/polygon.h", "ristra/geometry/shapes/tetrahedron.h: volume"]}
{"id": "C87", "title": "printed arrays and matrices", "statement": "Printing an array, a dimensioned array or a matrix writes its elements in order between brackets, one line for each row of a matrix, so that the text tells the elements; a field width applies to the whole.", "quantifier": "every element type, size and contents, every stream", "why_tests_cant": "all sizes and contents", "anchors": ["ristra/math/array.h: operator<<", "ristra/utils/dimensioned_array.h: operator<<", "ristra/math/multi_array.h: operator<<"]}
{"id": "C88", "title": "the Lua stack dump shows the stack", "statement": "Printing a Lua object lists the values on its stack from the bottom up, numbered, with type and value, says so when the stack is empty, and changes nothing; the last row reported with an error is the value on top.", "quantifier": "every Lua state", "why_tests_cant": "stack depth and contents are unbounded", "anchors": ["ristra/embedded/embed_lua.h: dump_stack, get_row, print_last_row, operator<<"]}
{"id": "C89", "title": "visualisation steps", "statement": "At each step exactly the scripts that ask for it are run, all of them at the last step, each with the grid, time and step given, in the order the scripts were named; ending the adaptor releases it once.", "quantifier": "every list of scripts and history of steps", "why_tests_cant": "histories are unbounded", "anchors": ["ristra/io/catalyst/adaptor.h: adaptor_t, initAdaptor, processCatalyst, finalizeAdaptor"]}
{"id": "C90", "title": "log files", "statement": "Writing a log makes the file hold exactly that text, appending adds to its end, and a log object writes the text inserted since it was last cleared to the file named last; other files are left alone and no text inserted is lost.", "quantifier": "every history of operations, every text and name", "why_tests_cant": "histories are unbounded", "anchors": ["ristra/io/catalyst/utils/insituLog.hpp: writeLog, writeLogApp, writeLogNew, InsituLog"]}
{"id": "C91", "title": "multidimensional array arithmetic and comparison", "statement": "Every arithmetic operator, assignment, fill and swap of multidimensional arrays acts at every index tuple as the operator on the elements there, whichever side a scalar stands on and whether or not an operand is the array assigned to; comparison is one total order decided by the first index tuple that differs; assigning a range makes the array hold that range.", "quantifier": "every rank and shape, every element type and contents", "why_tests_cant": "ranks, shapes and contents are unbounded", "anchors": ["ristra/math/multi_array.h: operator+=, operator-=, operator*=, operator/=, operator+, operator-, operator*, operator/, operator==, operator<, fill, swap, assign, front, back"]}
{"id": "C92", "title": "every way to write an atomic update is the same update", "statement": "An operator, a member function and a free function of the same documented name are one update, performed under the scheme asked for with the memory orders written; which calls compile depends only on the operation, the scheme and the number of orders as documented; the scheme never changes what is computed; updates written in any mix of forms by any number of threads add up.", "quantifier": "every operation, scheme, override, memory order, element type and platform; every schedule", "why_tests_cant": "combinations of forms, schemes and orders, and schedules, are too many", "anchors": ["ristra/atomics/src/atomics.h: operators, members, functions, get_scheme, apply", "ristra/atomics/src/atomics-macro-class.h", "ristra/atomics/src/atomics-macro-member.h", "ristra/atomics/src/atomics-macro-function.h", "ristra/atomics/src/atomics-macro-operator.h"]}
{"id": "C93", "title": "error reports tell where and what", "statement": "Every error macro writes the place and the message so that both can be told from the text, before it throws the documented exception or aborts; an assertion that holds does nothing; the two location macros give the same location.", "quantifier": "every file, function, line and message, with exceptions on and off", "why_tests_cant": "all texts", "anchors": ["ristra/assertions/errors.h", "ristra/assertions/here.h", "ristra/assertions/exceptions.h"]}
{"id": "C94", "title": "summing over Gauss points integrates over the cell", "statement": "For each element, summing weight times a function at the physical position times the Jacobian determinant over the Gauss points gives the integral of the function over the cell, for every polynomial of a degree the number of points suffices for; in particular the area and centroid of a quadrilateral and the volume of a hexahedron agree with the polygon and polyhedron functions, also for higher order elements with straight sides.", "quantifier": "every element, all vertices, every polynomial and number of points", "why_tests_cant": "the vertices and polynomials are unbounded, and the parts are tested only separately", "anchors": ["ristra/elements/elements.h: physical_position, partial_xi_shape_fcn, jacobian, Gauss2D, Gauss3D", "ristra/geometry/shapes/polygon.h: area, centroid", "ristra/geometry/shapes/polyhedron.h: volume"]}
{"id": "C95", "title": "type predicates tell what they say", "statement": "The predicates for types are true exactly for the types named: all of one type up to references and qualifiers, all integral, callable through an operator declared anywhere among the bases, containers with the members required, iterators, types that can be subscripted; a reference wrapper decays to its reference.", "quantifier": "every type, every class hierarchy, every list of types", "why_tests_cant": "types and class hierarchies are unbounded and a predicate is evaluated by the compiler", "anchors": ["ristra/utils/type_traits.h", "ristra/utils/type_traits_impl.h"]}
{"id": "C96", "title": "iterating over a view", "statement": "From begin to end of a view the iterators visit every element exactly once, in row-major order, and from rbegin to rend the same in reverse; cbegin to cend visits the same elements as begin to end; writing through them changes those elements and nothing else; the elements visited are those of the view the iterators were taken from, also after the view object is gone.", "quantifier": "every rank, extents and strides, every contents, every values written", "why_tests_cant": "ranks, extents and contents are unbounded", "anchors": ["ristra/utils/array_view.h: strided_iterator, contiguous_iterator, begin, end, cbegin, cend, rbegin, rend"]}
{"id": "C97", "title": "copies and conversions of views show the same elements", "statement": "A view made from another view, by copying, by converting between static, dynamic and strided, or by flattening to one dimension, shows the same elements at the same (flattened: row-major) indices; a view of a container is accepted exactly if the container is large enough and numbers its elements in row-major order; a cleared view has no elements and swapping exchanges two views.", "quantifier": "every rank, extents, strides and contents; every kind of source", "why_tests_cant": "which constructor is taken depends on rank, constness and value category; extents are unbounded", "anchors": ["ristra/utils/array_view.h: constructors from views and containers, conversion operators, make_array_view, clear, swap"]}
{"id": "C98", "title": "arithmetic of indices", "statement": "Sums, differences, negations, products and quotients of indices are those of the components, defined exactly if they fit; adding and subtracting undo each other, n times an index is the sum of n copies, dividing undoes multiplying, scaling by a fraction scales by that fraction; the element at an index of a section is the one at origin plus index; components are read back as they were given, and asking for one that is not there throws.", "quantifier": "every rank, all components and scalars", "why_tests_cant": "components and scalars are unbounded", "anchors": ["ristra/utils/array_view.h: index_t"]}
{"id": "C99", "title": "data handed over by an atomic update", "statement": "What a thread wrote before an update that releases may be read without a data race, with the values written, by any thread whose later update reads from it or from a later one and acquires; the default orders do both, the native scheme acquires whatever order is given, a call with given orders does exactly if one of the orders it uses does. Updates under the lock scheme never race and hand over everything; the last of any number of threads to add to a counter may read what all others wrote; under the serial scheme one thread alone never races and two updating the same variable do.", "quantifier": "every number of threads, every program of plain accesses and updates, every scheme and memory order, every execution a release/acquire memory allows", "why_tests_cant": "a weak memory shows its reorderings rarely and tests run on one machine with few schedules", "anchors": ["ristra/atomics/src/atomics.h: strong, weak, lock, serial, cpp, apply, load, get_scheme", "ristra/atomics/src/atomics-macro-class.h", "ristra/atomics/src/atomics-macro-function.h"]}
{"id": "C100", "title": "an input file's values reach the program", "statement": "Opening an input file succeeds exactly if it runs and has the table hydro with something under mesh, and throws otherwise; after that a program that asks for values, sizes and tables, locates keys and loads tables, in any order and number and catching the exceptions, is told call by call what the file says at the documented place of each key; an input engine resolving from the file gives every registered key the file's value, or the default if the file has none.", "quantifier": "every file contents, interpreter, key, type and sequence of calls", "why_tests_cant": "files and sequences of calls are unbounded, and what a call leaves on the Lua stack shows only many calls later", "anchors": ["ristra/initialization/input_source.h: lua_source_t", "ristra/initialization/input_engine.h", "ristra/embedded/embed_lua.h: lua_t, lua_result_t, lua_ref_t"]}
{"id": "C101", "title": "functions taken from an input file stay callable", "statement": "A wrapped Lua function can be called through any living copy of the wrapper and calls the function it was made from, whatever happened to the other copies and to the objects it was made from.", "quantifier": "every program that wraps, copies and destroys, every function and arguments", "why_tests_cant": "the order of copies and destructions is unbounded, and a call through a dead object may seem to work", "anchors": ["ristra/embedded/embed_lua.h: Lua_Func_Wrapper"]}
{"id": "C102", "title": "an array is what it was made from", "statement": "Making or assigning an array from one value sets every element to it, from one value for each element to those, from another array to its elements, from nothing in braces to zero, however it is written; the ways to write it agree where they compile; a wrong number of values is refused; no element is left undetermined.", "quantifier": "every element type, size, arguments and their types, for the three array classes", "why_tests_cant": "which constructor runs depends on the number, types and form of the arguments, which are unbounded, and much of it is decided by the compiler", "anchors": ["ristra/math/array.h: constructors, operator=, fill", "ristra/math/multi_array.h: constructors, operator=, fill, assign", "ristra/utils/dimensioned_array.h: constructors, operator="]}
{"id": "C103", "title": "flat polygons in space, moved and scaled", "statement": "A flat polygon put anywhere in space has the area and centroid it has in the plane; a polygon in space moved, turned or scaled by s keeps its shape: the area is multiplied by s squared and the centroid goes along; the centroid lies among the vertices, in their convex hull; a list of arguments gives the same as a range of points.", "quantifier": "every number of vertices, every polygon, every similarity", "why_tests_cant": "all vertices and positions", "anchors": ["ristra/geometry/shapes/polygon.h: polygon<3>::area, polygon<3>::centroid", "ristra/geometry/area.h", "ristra/geometry/centroid.h"]}
{"id": "C104", "title": "what can be asked of a view", "statement": "What a dynamic view can be asked, a static or strided view of the same elements can: its rows, checked rows, sections with and without origin, strides, extents; a view made from another shows the elements of the other, in row-major order.", "quantifier": "every kind of view, every rank, all extents, strides, indices and origins, every way of making one view from another", "why_tests_cant": "whether a member compiles shows only where it is used, and what a static view is missing only in a program that asks for it", "anchors": ["ristra/utils/array_view.h"]}
{"id": "C105", "title": "views of arrays and containers stay inside them", "statement": "A view made of an array or container, with or without dimensions given, shows its first elements in row-major order; one that would reach past the end is rejected.", "quantifier": "arrays of every rank and extents, containers of every size, named, const or temporary, all dimensions", "why_tests_cant": "all combinations of array extents and dimensions asked for; reading past the end may go unnoticed", "anchors": ["ristra/utils/array_view.h"]}
{"id": "C106", "title": "one operation for every input type", "statement": "An operation applied to every type of a tuple is called once for each type, in order, with the position of the type and the arguments given, and returns the results in that order; an exception ends it; clearing, resolving and registering sets of targets are made of such calls.", "quantifier": "every tuple of types, every operation, all arguments, named or temporary", "why_tests_cant": "what the macros do depends on the tuple and on the kind of each argument; the engine uses them only in harmless ways", "anchors": ["ristra/initialization/inputs_impl.h", "ristra/initialization/input_engine.h: clear_registry, resolve_inputs, register_targets"]}
{"id": "C107", "title": "the report of unresolved inputs", "statement": "When resolve_inputs() returns false, its report names exactly the types with unresolved targets, in order, and for each exactly its unresolved targets; when it returns true nothing is reported; reporting does not change the result.", "quantifier": "every state of the registries and sources, any number of types, every history of attempts", "why_tests_cant": "histories are unbounded and the report is text for people, which no test reads", "anchors": ["ristra/initialization/input_engine.h: resolve_inputs, print_unresolved_types_"]}
{"id": "C108", "title": "engines own their sources", "statement": "An input engine owns the sources registered with it: it has the one registered last, deletes it when it is replaced or the engine is destroyed and not before, each source once; asking for a source that is not there throws.", "quantifier": "every program: any number of engines, any order of registrations, replacements and destructions, all build options", "why_tests_cant": "histories are unbounded; a double deletion may go unnoticed", "anchors": ["ristra/initialization/input_engine.h: register_lua_source, register_hard_coded_source, get_lua_source, get_hard_coded_source"]}
{"id": "C109", "title": "an element that throws leaves a usable vector", "statement": "If copying or moving an element throws during an operation on a fixed vector, the vector is still valid: size within the capacity, elements that can be read; insertions and removals have not touched what lies before them; adding at the end has no effect if it throws.", "quantifier": "every vector, every operation within its range, every element assignment that may be the one to throw, whatever it leaves in its target", "why_tests_cant": "every point of interruption of every operation; tests use elements that do not throw", "anchors": ["ristra/utils/fixed_vector.h: push_back, emplace_back, assign, insert, erase, resize, swap, operator="]}
{"id": "C110", "title": "reading JSON", "statement": "A text is accepted exactly if it is a JSON text of RFC 8259 in UTF-8, with numbers that can be represented, possibly after a byte order mark; the value read is the one the text stands for, integers of 64 bits exactly, an object with each name once and the last value given for it; every string read is well-formed UTF-8; reading any bytes ends, with the value or one of two exceptions.", "quantifier": "every sequence of bytes, every depth of nesting, every floating-point type", "why_tests_cant": "texts and nesting are unbounded, and the parser keeps its own stack instead of recursing", "anchors": ["ristra/io/catalyst/utils/json.hpp: lexer, parser, json_sax_dom_parser, basic_json::parse"]}
{"id": "C111", "title": "reading JSON from a stream", "statement": "The operator >> takes one JSON value from the stream and leaves what follows it; values one after the other are read one after the other; what the variable held before does not matter.", "quantifier": "every contents of the stream, any number of values", "why_tests_cant": "all texts and what follows them", "anchors": ["ristra/io/catalyst/utils/json.hpp: operator>>, parser::parse, lexer::unget"]}
{"id": "C112", "title": "the scripts an input file names", "statement": "getCatalystScripts returns the strings listed under catalyst-scripts in the input file, in their order, each with the directory of the file before it; none if there is no list; a file that cannot be read, is no JSON or has something else in the place of the list makes it throw.", "quantifier": "every contents of the file, every file name", "why_tests_cant": "all texts, spellings of the same list, names given twice, files that are damaged", "anchors": ["ristra/io/catalyst/utils/catalystUtils.hpp: getCatalystScripts", "ristra/io/catalyst/utils/json.hpp: operator>>, find, operator[], size, get"]}
{"id": "C113", "title": "JSON written is read back", "statement": "A value whose strings are UTF-8 is written as a JSON text of RFC 8259 that is read back as the value, whatever the indentation, escaping and error handler; values written to a stream one on each line are read from it one after the other.", "quantifier": "every value of every size and depth, every indentation of at most 1024 columns of white space, all options", "why_tests_cant": "values are unbounded, and the text has to be both grammatical and read as the same value", "anchors": ["ristra/io/catalyst/utils/json.hpp: basic_json::dump, operator<<, serializer, parse, operator>>"]}
{"id": "C114", "title": "strings that are not UTF-8 when writing JSON", "statement": "With the handler strict a value is written exactly if all its strings are UTF-8, otherwise an exception is thrown; with replace and ignore every value is written, as JSON, each maximal ill-formed part replaced by U+FFFD or left out; nothing else is changed and no member is lost.", "quantifier": "every string of bytes, every value, all handlers", "why_tests_cant": "all ill-formed byte sequences at all positions, also across the boundaries of the internal buffer", "anchors": ["ristra/io/catalyst/utils/json.hpp: serializer::dump_escaped, serializer::decode, error_handler_t"]}
{"id": "C115", "title": "layout of written JSON", "statement": "Written with an indentation of n the text has each element on its own line behind n characters per level of the character asked for; written without it is one line without blanks; writing ends in the text or type_error.316, never in undefined behaviour.", "quantifier": "every value of every size and depth, every indentation and indentation character", "why_tests_cant": "depths and indentations are unbounded; the string of indentation grows while writing", "anchors": ["ristra/io/catalyst/utils/json.hpp: serializer::dump, basic_json::dump, operator<<"]}
{"id": "C116", "title": "comparing JSON values", "statement": "Exactly one of a < b, a == b, b < a holds; < is transitive and equal values can be exchanged in it; values are equal exactly if they stand for the same, whatever type their numbers are stored with; a value that is written and read back equals the original.", "quantifier": "all values of every size and depth, all numbers", "why_tests_cant": "values and the combinations of number types are unbounded; an order fails only on particular triples", "anchors": ["ristra/io/catalyst/utils/json.hpp: operator==, operator<, operator!=, operator<=, operator>, operator>=, value_t"]}
{"id": "C117", "title": "floating-point numbers in JSON", "statement": "A finite double is written as a JSON number with a fraction or an exponent, of at most 24 characters and 17 digits, that is nearer to it than to every other double, so that it is read back to the last bit, and no shorter text would be; writing fails no assertion and stays within the buffer.", "quantifier": "every double", "why_tests_cant": "2^64 numbers, of which a few in a thousand are not written as short as possible; the arithmetic is approximate and its error is bounded only by proof", "anchors": ["ristra/io/catalyst/utils/json.hpp: to_chars, dtoa_impl::grisu2, grisu2_digit_gen, grisu2_round, compute_boundaries, get_cached_power_for_binary_exponent, diyfp, format_buffer, append_exponent, serializer::dump_float"]}
{"id": "C118", "title": "JSON pointers as texts", "statement": "A text is accepted as a JSON pointer exactly if it is one of RFC 6901, with the reference tokens of the grammar; a pointer written as a text is read back as the same pointer, whatever bytes are in its tokens; other texts are refused with the documented exceptions.", "quantifier": "every text, every list of tokens", "why_tests_cant": "texts and tokens are unbounded; escapes can be mistaken for each other only in particular combinations", "anchors": ["ristra/io/catalyst/utils/json.hpp: json_pointer, split, to_string, escape, unescape"]}
{"id": "C119", "title": "finding a value by a JSON pointer", "statement": "at() with a pointer finds the value the pointer leads to by RFC 6901 and throws if it leads nowhere; contains() says whether it does; operator[] of a constant finds the same value.", "quantifier": "every value of every size and depth, every pointer", "why_tests_cant": "values and pointers are unbounded, and the texts taken for array indices are those of strtol", "anchors": ["ristra/io/catalyst/utils/json.hpp: at, contains, operator[], json_pointer::get_checked, json_pointer::contains, json_pointer::array_index"]}
{"id": "C120", "title": "assigning through a JSON pointer", "statement": "What is assigned to v[ptr] is found by the pointer afterwards, members and elements that are missing are made, everything a pointer apart from it led to is still found, and a - appends to an array; the behaviour is always defined.", "quantifier": "every value, every pointer, everything that can be done through the reference", "why_tests_cant": "values and pointers are unbounded; undefined behaviour may go unnoticed", "anchors": ["ristra/io/catalyst/utils/json.hpp: operator[], json_pointer::get_unchecked, basic_json::operator[]"]}
{"id": "C121", "title": "a JSON patch made by diff", "statement": "source.patch(diff(source, target)) == target; diff(source, target) is empty exactly if source == target; the patch has only operations add, remove and replace, with JSON pointers as paths.", "quantifier": "all pairs of values of every size and depth", "why_tests_cant": "pairs of values are unbounded; each operation changes what the paths of the next ones lead to", "anchors": ["ristra/io/catalyst/utils/json.hpp: diff, patch, json_pointer::top_pointer, json_pointer::pop_back"]}
{"id": "C122", "title": "the operations of a JSON patch", "statement": "patch() performs every operation of RFC 6902 as the RFC asks for, one after the other, and gives the resulting value; an operation that cannot be performed, and what is no patch, is refused with an exception, and the behaviour is always defined.", "quantifier": "every value of every size and depth, every patch", "why_tests_cant": "values, paths and sequences of operations are unbounded; what is wrongly accepted shows only for particular paths", "anchors": ["ristra/io/catalyst/utils/json.hpp: patch, operation_add, operation_remove, get_value"]}
{"id": "C123", "title": "merge patches of JSON values", "statement": "After v.merge_patch(p) the value is the one RFC 7396 asks for: p if p is no object, else an object with the members of v, without those that are null in p and with the others of p merged into those of the same name; merging again changes nothing.", "quantifier": "all values and patches of every size and depth", "why_tests_cant": "values and patches are unbounded, and members are erased and made while the patch is followed", "anchors": ["ristra/io/catalyst/utils/json.hpp: merge_patch, erase, operator[]"]}
{"id": "C124", "title": "flattening JSON values", "statement": "flatten() gives an object whose names are the JSON pointers to everything that is no object and no array, with what they lead to; unflatten() of it is the original value, apart from empty objects and arrays, which come back as null; unflatten() of anything else ends with a value or an exception.", "quantifier": "every value of every size and depth", "why_tests_cant": "values and their names are unbounded; the members are taken in the order of their escaped names, which decides what is made of them", "anchors": ["ristra/io/catalyst/utils/json.hpp: flatten, unflatten, json_pointer::flatten, json_pointer::unflatten, json_pointer::get_and_create"]}
{"id": "C125", "title": "reading CBOR", "statement": "from_cbor reads every data item of RFC 7049 that has a counterpart in JSON as its value, however its lengths are given, and nothing else; bytes after the item are refused, or left in the input; a text that ends too early, and an item without a counterpart, is refused with the documented exception, or with a discarded value if exceptions are not allowed; reading any bytes ends.", "quantifier": "every sequence of bytes, every depth of nesting, both byte orders of the machine", "why_tests_cant": "byte sequences and nesting are unbounded; what is wrongly accepted are a few items out of all", "anchors": ["ristra/io/catalyst/utils/json.hpp: from_cbor, binary_reader::parse_cbor_internal, get_cbor_string, get_cbor_array, get_cbor_object, get_number, get_string, json_sax_dom_parser::start_array"]}
{"id": "C126", "title": "writing CBOR", "statement": "to_cbor gives a data item of RFC 7049 that stands for the value, with integers in the fewest bytes, the same bytes on every machine; from_cbor of it, on any machine, gives the value back.", "quantifier": "all values of every size and depth, all machines", "why_tests_cant": "values are unbounded, and a machine of the other byte order is rarely at hand", "anchors": ["ristra/io/catalyst/utils/json.hpp: to_cbor, binary_writer::write_cbor, write_number, from_cbor"]}
{"id": "C127", "title": "floating-point numbers of 16 and 32 bits", "statement": "A number of 16 or 32 bits in a CBOR item is read as the double of the same value: zeros, subnormal numbers, infinities and signs included; a NaN is read as a NaN.", "quantifier": "every number of 16 and of 32 bits", "why_tests_cant": "2^32 numbers, and their values have to be computed otherwise than by the code", "anchors": ["ristra/io/catalyst/utils/json.hpp: binary_reader::parse_cbor_internal"]}
{"id": "C128", "title": "reading MessagePack", "statement": "from_msgpack reads every object of the MessagePack specification that has a counterpart in JSON as its value, in whichever of its forms it stands, and nothing else; bytes after the object are refused, or left in the input; a text that ends too early, and an object without a counterpart, is refused with the documented exception, or with a discarded value if exceptions are not allowed; reading any bytes ends.", "quantifier": "every sequence of bytes, every depth of nesting, both byte orders of the machine", "why_tests_cant": "byte sequences and nesting are unbounded", "anchors": ["ristra/io/catalyst/utils/json.hpp: from_msgpack, binary_reader::parse_msgpack_internal, get_msgpack_string, get_msgpack_array, get_msgpack_object, get_number, get_string, json_sax_dom_parser::start_array"]}
{"id": "C129", "title": "writing MessagePack", "statement": "to_msgpack gives an object of the MessagePack specification that stands for the value, in the fewest bytes, the same bytes on every machine; from_msgpack of it, on any machine, gives the value back; a value that the format cannot hold is reported.", "quantifier": "all values of every size and depth, all machines", "why_tests_cant": "values are unbounded, one that is too large for the format takes gigabytes, and a machine of the other byte order is rarely at hand", "anchors": ["ristra/io/catalyst/utils/json.hpp: to_msgpack, binary_writer::write_msgpack, write_number, from_msgpack"]}
{"id": "C130", "title": "reading BSON", "statement": "from_bson reads every document of the BSON specification whose elements have a counterpart in JSON as the object with these members, and nothing else; bytes after the document are refused, or left in the input; a text that ends too early, and an element without counterpart, is an error that is reported, never a value; reading always ends.", "quantifier": "all texts of bytes, nested to any depth, with and without strict and allow_exceptions, on machines of either byte order", "why_tests_cant": "A test reads some documents. That every sequence of bytes ends in the value the specification gives it or in an error needs an argument about the reader as a whole; that the size of a document is never looked at, and that a missing last byte of a string goes unreported, shows only if one asks for exactly these inputs.", "anchors": ["ristra/io/catalyst/utils/json.hpp:5211-5255", "ristra/io/catalyst/utils/json.hpp:5283-5490", "ristra/io/catalyst/utils/json.hpp:6982-7058", "ristra/io/catalyst/utils/json.hpp:21802-21828"]}
{"id": "C131", "title": "writing BSON", "statement": "to_bson gives a document of the BSON specification that stands for the object, its size at the front, the same bytes on every machine; from_bson of it, on any machine, gives the object back; a value that the format cannot hold is refused with an exception that says why, before anything is returned.", "quantifier": "all objects of every size and depth, machines of either byte order", "why_tests_cant": "The sizes are computed by functions of their own before the bytes are written; that the two agree for every object is a statement about all values. Strings of 2^31 bytes are beyond tests.", "anchors": ["ristra/io/catalyst/utils/json.hpp:11338-11353", "ristra/io/catalyst/utils/json.hpp:12008-12305", "ristra/io/catalyst/utils/json.hpp:12562-12577", "ristra/io/catalyst/utils/json.hpp:21389-21414"]}
{"id": "C132", "title": "reading UBJSON", "statement": "from_ubjson reads every value of the UBJSON specification as the JSON value it stands for, in whichever of its forms it stands \u2013 with or without sizes and types of containers, with no-ops between \u2013 and nothing else; bytes after the value are refused, or left in the input; a text that ends too early, a size that cannot be, and a value without counterpart are refused with the documented exception; reading any bytes ends, and takes a time proportional to them.", "quantifier": "every sequence of bytes, every depth of nesting, with and without strict and allow_exceptions, on machines of either byte order", "why_tests_cant": "byte sequences and nesting are unbounded, and each container can be written in three forms, with no-ops in many places; what is wrongly accepted or refused shows only for particular bytes", "anchors": ["ristra/io/catalyst/utils/json.hpp: from_ubjson, binary_reader::parse_ubjson_internal, get_ubjson_string, get_ubjson_size_value, get_ubjson_size_type, get_ubjson_value, get_ubjson_array, get_ubjson_object, get_ignore_noop"]}
{"id": "C133", "title": "writing UBJSON", "statement": "to_ubjson gives a value of the UBJSON specification that stands for the value, with integers in the fewest bytes, the same bytes on every machine, with sizes and types of containers if asked for; from_ubjson of it, on any machine, gives the value back; what the format cannot hold is refused with the documented exception, at any depth.", "quantifier": "all values of every size and depth, all combinations of options, all machines", "why_tests_cant": "values are unbounded; whether the elements of a container share a type depends on all of them, and the type then decides how each is written", "anchors": ["ristra/io/catalyst/utils/json.hpp: to_ubjson, binary_writer::write_ubjson, write_number_with_ubjson_prefix, ubjson_prefix, from_ubjson"]}
{"id": "C134", "title": "walking through a JSON value", "statement": "A loop from begin() to end() meets every element once, in order; rbegin()/rend() the other way round; items() with their names; find() gives the place of a member or end(); iterators of arrays are random-access; *it can be read and assigned; what makes no sense is refused with the documented exception.", "quantifier": "every value of every size and type, every pair of places in it", "why_tests_cant": "sizes are unbounded, and each of the eight types of value has its own kind of iterator inside", "anchors": ["ristra/io/catalyst/utils/json.hpp: iter_impl, json_reverse_iterator, iteration_proxy, begin, end, rbegin, rend, find, count, contains, size, empty, front, back, value"]}
{"id": "C135", "title": "removing elements of a JSON value", "statement": "erase() removes the elements it is asked for and no others, and gives back the place after them or the number removed; a loop that erases what satisfies a condition and goes on from the place given back removes exactly that; what is not there, and a place in another value, is refused.", "quantifier": "every value of every size, every element and range, every condition", "why_tests_cant": "sizes are unbounded; a place that is wrong by one is met only by particular loops", "anchors": ["ristra/io/catalyst/utils/json.hpp: erase, clear, iter_impl"]}
{"id": "C136", "title": "adding elements to a JSON value", "statement": "insert() puts values before the place given and keeps all others; push_back, emplace_back, emplace and update add what is given and keep the rest, update replacing members and the others not; the value given may be the value itself or a part of it; a call that is refused changes nothing.", "quantifier": "all values of every size, every place, every range, values that are part of themselves", "why_tests_cant": "sizes are unbounded, and what happens if the source of the update is part of its target depends on names at all depths", "anchors": ["ristra/io/catalyst/utils/json.hpp: insert, push_back, emplace_back, emplace, update, operator+="]}
{"id": "C137", "title": "JSON values from lists in braces", "statement": "A list in braces is an array of the values in it, or, if it is a list of names with values, an object of them; array() and object() make the one asked for; a pair of iterators gives the elements between.", "quantifier": "all lists of values of every length, all ranges", "why_tests_cant": "which of the two a list becomes depends on all its values", "anchors": ["ristra/io/catalyst/utils/json.hpp: basic_json(initializer_list_t), array, object, basic_json(InputIT, InputIT), push_back(initializer_list_t)"]}
{"id": "C138", "title": "C++ values through JSON and back", "statement": "A C++ value made a JSON value is given back by get<T>(), the same: numbers, strings, enumerations, sequences, arrays, pairs, tuples and maps of them, nested to any depth; also if the JSON value was written as a text and read again in between.", "quantifier": "all types made of these, nested to any depth, all their values of any size", "why_tests_cant": "types and values are unbounded; whether a pair of two sequences comes back depends on how long they happen to be and on what is in front of them", "anchors": ["ristra/io/catalyst/utils/json.hpp: basic_json(CompatibleType&&), to_json, external_constructor, get, from_json, dump, parse"]}
{"id": "C139", "title": "reading a JSON value as a C++ type", "statement": "get<T>() gives the value of the type T the JSON value stands for, or throws type_error.302, type_error.304 or out_of_range.401 if there is none; a number that T cannot hold, and elements T has no place for, are reported; get_to() does the same and leaves its variable alone if it throws.", "quantifier": "every JSON value of every size and depth, every type made of numbers, strings, enumerations, sequences, arrays, tuples and maps", "why_tests_cant": "values and types are unbounded; numbers that do not fit are rare in tests, and undefined conversions look like numbers", "anchors": ["ristra/io/catalyst/utils/json.hpp: get, get_to, from_json, get_arithmetic_value, from_json_array_impl, from_json_tuple_impl, at"]}
{"id": "C140", "title": "pointers and references to what a JSON value holds", "statement": "get_ptr<T>() gives a pointer exactly if the value is of the type T, else null, and get_ref<T>() throws type_error.303 then; what is read through it is the value; what is written through it is what the value is afterwards.", "quantifier": "every JSON value, all types that can be asked for, every number written", "why_tests_cant": "numbers of 64 bits; the type and the bits of a number are stored apart and disagree only for half of the numbers", "anchors": ["ristra/io/catalyst/utils/json.hpp: get_ptr, get_ref, get_impl_ptr, is_number_integer, json_value"]}
{"id": "C141", "title": "codes in compressed images", "statement": "Lengths of Huffman codes in a compressed stream are accepted exactly if such codes exist, and bits are then read as exactly the symbols whose codes, by the rule of RFC 1951, they are; no bits lead to undefined behaviour in this.", "quantifier": "all lists of lengths, all bits", "why_tests_cant": "The table for short codes and the search for long ones must agree for every list of up to 288 lengths and every sequence of bits.", "anchors": ["ristra/io/catalyst/utils/stb_image.h: stbi__zbuild_huffman, stbi__zhuffman_decode, stbi__zhuffman_decode_slowpath, stbi__bit_reverse, stbi__zreceive, stbi__fill_bits"]}
{"id": "C142", "title": "decoding zlib streams", "statement": "stbi_zlib_decode_buffer, stbi_zlib_decode_malloc and their variants give back exactly the bytes that a stream of RFC 1950 or RFC 1951 stands for, if they fit; a stream that is not one is refused.", "quantifier": "every sequence of bytes, blocks of all types, every size of the buffer", "why_tests_cant": "streams are unbounded, and copies reach back over everything decoded so far; what is wrongly accepted shows only for particular bits", "anchors": ["ristra/io/catalyst/utils/stb_image.h: stbi__parse_zlib, stbi__parse_huffman_block, stbi__compute_huffman_codes, stbi__parse_uncompressed_block, stbi__parse_zlib_header, stbi__zexpand, stbi_zlib_decode_buffer, stbi_zlib_decode_malloc_guesssize_headerflag"]}
{"id": "C143", "title": "hostile zlib streams", "statement": "Whatever bytes are given, decoding them ends, with bytes or a refusal; it never reads or writes outside its buffers, reads nothing it has not written, and fails no assertion.", "quantifier": "every sequence of bytes, every size of the buffer", "why_tests_cant": "The streams on which decoding does not end, or reads what was never written, are a few among all; only an argument over all streams finds them all.", "anchors": ["ristra/io/catalyst/utils/stb_image.h: stbi__parse_huffman_block, stbi__zexpand, stbi__zget8, stbi_zlib_decode_malloc_guesssize_headerflag, stbi_zlib_decode_buffer"]}
{"id": "C144", "title": "the scanlines of a PNG picture", "statement": "Whichever of the five filters the scanlines of a picture are filtered by, and whatever the depth and the number of channels are, the samples given back are those of the picture, grey of few bits spread over 0 to 255, with an opaque alpha where one is added; data that are not the scanlines of a picture are refused, and nothing fails otherwise.", "quantifier": "all sizes, depths and numbers of channels, all pictures, all choices of filters, all data", "why_tests_cant": "pictures are unbounded, and each byte depends on all those before it; a filter that is undone wrongly in one corner shows only for particular bytes", "anchors": ["ristra/io/catalyst/utils/stb_image.h: stbi__create_png_image_raw, stbi__paeth"]}
{"id": "C145", "title": "interlaced PNG pictures", "statement": "From the seven passes of an interlaced picture the samples of the whole picture are given back, each at its place, for every size of the picture, also where passes are empty; other data, and a picture for which there is no memory, are refused.", "quantifier": "all sizes, depths and numbers of channels, all pictures, all data", "why_tests_cant": "which passes are empty depends on both sizes; pictures for which memory lacks are beyond tests", "anchors": ["ristra/io/catalyst/utils/stb_image.h: stbi__create_png_image"]}
{"id": "C146", "title": "PNG files", "statement": "A PNG file of the format is read as the picture it stands for: size, channels and the bytes of every pixel, whatever the compression, the filters, the way the data are cut into chunks, the palette, the transparent colour, interlacing, chunks that may be left out of account, and bytes behind the end; files that are not of the format are refused.", "quantifier": "all pictures up to 2^26 pixels, all files that stand for them, all files", "why_tests_cant": "the files that stand for one picture are infinitely many; wrong checks, indices beyond the palette and lengths of 2^31 are not in any test file", "anchors": ["ristra/io/catalyst/utils/stb_image.h: stbi_load, stbi__parse_png_file, stbi__expand_png_palette, stbi__compute_transparency, stbi__convert_16_to_8"]}
{"id": "C147", "title": "any file read as a PNG file", "statement": "Whatever bytes a file has, reading it as a PNG file ends, with an error or with a picture of the size its header says, all of whose bytes come from the file; it never fails an assertion, and never reads or writes outside its memory or what it has not written.", "quantifier": "all files of every length, every amount of memory", "why_tests_cant": "files are unbounded; those on which reading does not end or runs into undefined behaviour are a few among all", "anchors": ["ristra/io/catalyst/utils/stb_image.h: stbi_load, stbi__parse_png_file, stbi__create_png_image, stbi_zlib_decode_malloc_guesssize_headerflag, stbi__convert_16_to_8"]}
{"id": "C148", "title": "comparing PNG files as images", "statement": "imageCompare of two PNG files is true exactly if the pictures they stand for have one size and the same channels and are different in at most 2 percent of their bytes, in either order; how the files are compressed, filtered, cut into chunks and interlaced, and whether colours come from a palette, does not matter; files that are no pictures are different from all others.", "quantifier": "all pairs of PNG files of up to 2^26 pixels, all pairs of files", "why_tests_cant": "the files of one picture are infinitely many; two encodings of one picture are rarely in one test", "anchors": ["ristra/io/catalyst/utils/catalystUtils.hpp: imageCompare", "ristra/io/catalyst/utils/stb_image.h: stbi_load"]}
{"id": "C149", "title": "reading JSON without building it", "statement": "sax_parse tells a consumer of events exactly the value that stands in a JSON text, in the order of the text, repeated keys included, and stops at once when the consumer has enough; about any other text it tells the beginning of a value and then the error that parse throws. accept() is true exactly for the texts that parse reads, and never throws. parse() without exceptions gives the value or, exactly where it would have thrown, a discarded value.", "quantifier": "every text, every consumer, every value of every size and depth", "why_tests_cant": "texts and consumers are unbounded; the methods of a consumer could be called out of order only for particular wrong texts", "anchors": ["ristra/io/catalyst/utils/json.hpp: sax_parse, accept, parse, parser::sax_parse_internal, json_sax, json_sax_acceptor, json_sax_dom_parser"]}
{"id": "C150", "title": "filtering JSON while it is read", "statement": "parse with a callback tells the callback every value with its depth, every key, and every array and object when it starts and when it ends; what the callback accepts is in the result, as the callback has left it, and what it rejects is skipped, as if it had never been read, the whole being null if it is rejected itself; a text that is no JSON text is an error as without a callback.", "quantifier": "every text, every callback, with any state, any answers and any changes of the values", "why_tests_cant": "Each answer acts on the values around it, through stacks of places and flags; tests reject a few kinds of values at a few places, and the places where what is rejected stays behind depend on the kind of the container, the kind of the value, the moment of the answer and what follows.", "anchors": ["ristra/io/catalyst/utils/json.hpp:8711-8760", "ristra/io/catalyst/utils/json.hpp:4640-4945", "ristra/io/catalyst/utils/json.hpp:15660-15713"]}
{"id": "C151", "title": "the memory of the arrays of a grid", "statement": "Data added to a grid without copying (addFieldData, addVectorData with one array) are seen in it as they are in the memory of the caller, also after they change; the memory stays the caller's, to be used and released by the caller; adding an array under a name anew replaces the old one; with the grid all memory is released that was taken for it.", "quantifier": "all memory of callers, all sequences of adding arrays of all kinds and of writing to memory, the end of the grid at any time", "why_tests_cant": "What is released twice or never, and what is looked at after its release, depends on how arrays share memory over a whole run with many steps; tests of a single call see the right values.", "anchors": ["ristra/io/catalyst/vtk/unstructuredGrid.h:298-312", "ristra/io/catalyst/vtk/unstructuredGrid.h:315-426"]}
{"id": "C152", "title": "the files a grid is written to", "statement": "When each of n processes writes its part of a grid with writeParts(n, r, r, f) or writeUnstructuredGrid, then, in whichever order they do so, f.pvtu lists one file for each process, each file has the grid of its process, and no other file is changed; a grid written with write(f), or after setOutputSerial, is in f.vtu; the grids of all processes are there afterwards.", "quantifier": "all numbers of processes, all orders in which their files are written, all names, all sequences of calls before", "why_tests_cant": "The order in which processes write is not fixed, and a file overwritten by another process looks like any other.", "anchors": ["ristra/io/catalyst/vtk/unstructuredGrid.h:98-100", "ristra/io/catalyst/vtk/unstructuredGrid.h:432-494", "ristra/io/catalyst/vtk/unstructuredGrid.h:563-619"]}
{"id": "C153", "title": "access to elements of a JSON value", "statement": "j.at(a).at(b)\u2026 gives the value the keys and indices lead to, or throws the documented exception for the first that is not there and changes nothing; j[a][b]\u2026 gives the same where it is there; after j[a][b]\u2026 = x the keys and indices lead to x, and everything they do not lead to or through is as before, but for nulls that fill up an array; a chain that meets a value of the wrong type is refused and changes nothing; reading changes nothing.", "quantifier": "all values of every size and depth, all chains of keys and indices of any length, all values assigned", "why_tests_cant": "Chains and values are unbounded; what is made on the way depends on each value met, and a read that adds a null shows only later.", "anchors": ["ristra/io/catalyst/utils/json.hpp:17520-17689", "ristra/io/catalyst/utils/json.hpp:17715-17770", "ristra/io/catalyst/utils/json.hpp:17799-17950"]}
{"id": "C154", "title": "a JSON value when reading into it fails", "statement": "When operator>> cannot read a value from a stream and throws, the variable it was to read into is as it was before if the text does not begin (after white space) with [ or {; otherwise its old value is lost, and it holds the part of the array or object that had been read: every complete element and member, as much of the last one, and null for a key without a value (unless the same key had one before). No memory is touched that may not be.", "quantifier": "every text, every value before", "why_tests_cant": "texts and the places where they break off are unbounded", "anchors": ["ristra/io/catalyst/utils/json.hpp: operator>>, parser::parse, json_sax_dom_parser"]}
{"id": "C155", "title": "a stream when writing a JSON value to it fails", "statement": "When all strings of a value and all names of members are UTF-8, o << j writes the whole text of the value and throws nothing. Otherwise it throws type_error.316; the stream has then got a beginning of the text that dump gives with the handlers replace and ignore, which holds all that stands before the opening quote of a string that is not UTF-8, that quote, and perhaps a beginning of that string, but nothing of it if it has at most 83 bytes. The stream is not as it was before.", "quantifier": "all values of every size and depth, all widths and fill characters of the stream", "why_tests_cant": "Values are unbounded, and where the text breaks off depends on the buffer within a string and on all that stands before it.", "anchors": ["ristra/io/catalyst/utils/json.hpp: operator<<, serializer::dump, serializer::dump_escaped"]}
{"id": "C156", "title": "where a JSON text is wrong", "statement": "The exception of a text that is refused says where: the byte, counted from one, lies in the text or directly behind it; line and column are those of that byte. The place depends only on the text up to that byte and the one behind it, so that what stands later cannot change it; it is never before a point up to which the text could still have become a valid one, and a text that has only been cut off is refused at its end.", "quantifier": "every text, every continuation", "why_tests_cant": "The places where texts go wrong are unbounded, and a counter that is off by one shows only behind particular bytes, such as an end of line put back after a number.", "anchors": ["ristra/io/catalyst/utils/json.hpp:8374-8446", "ristra/io/catalyst/utils/json.hpp:7200-7204", "ristra/io/catalyst/utils/json.hpp:1944-1982", "ristra/io/catalyst/utils/json.hpp:8831-9108"]}
{"id": "C157", "title": "PGM and PPM pictures", "statement": "stbi_load reads a PGM or PPM file in which nothing is missing, however its header is laid out and commented, as a picture of the size told, with the samples of the file, scaled by the greatest value told; samples of two bytes are refused. A file whose end is missing and a file that is no picture are refused, and no file makes the program read memory it must not read. imageCompare of two such files depends on the sizes and samples alone.", "quantifier": "every width and height, every layout of the header, every file of bytes", "why_tests_cant": "Headers, comments and sizes are unbounded, files are cut anywhere, and the end of a file is noticed in different ways depending on whether its size is a multiple of the buffer.", "anchors": ["ristra/io/catalyst/utils/stb_image.h:7190-7299", "ristra/io/catalyst/utils/stb_image.h:1499-1588", "ristra/io/catalyst/utils/stb_image.h:1049-1093", "ristra/io/catalyst/utils/catalystUtils.hpp:70-128"]}
{"id": "C158", "title": "BMP pictures", "statement": "stbi_load reads a BMP file as the picture that it holds: of 24 or 32 bits per pixel, of 16 or 32 bits by masks for the colours, or of 1, 4 or 8 bits per pixel with a palette, with the rows from the bottom up or from the top down, for every version of the header, with the pixels at the place that the header tells. A file whose end is missing, or that names a colour its palette does not have, is refused. No file makes the program read or write memory it must not touch, and none makes it stop.", "quantifier": "every width and height, every file of bytes", "why_tests_cant": "Sizes, palettes and headers are unbounded in combination; rows are filled up to a multiple of four bytes and swapped in place, and whether a place in the file is computed rightly depends on how much of the file the buffer held.", "anchors": ["ristra/io/catalyst/utils/stb_image.h:5134-5477", "ristra/io/catalyst/utils/stb_image.h:1499-1561", "ristra/io/catalyst/utils/stb_image.h:1615-1627"]}
{"id": "C159", "title": "Comparing pictures of different formats", "statement": "imageCompare compares two pictures, not two files: whether each of them is a PNG, PGM, PPM, BMP or TGA file does not matter, a picture written in two formats compares as similar, the order of the two files does not matter, and a file compares as similar with itself.", "quantifier": "every two files of any of these formats, of every size", "why_tests_cant": "Any pair of formats, header layouts, row orders and compressions can meet; a test fixes a few pairs of files and cannot show that the result depends on the pictures only.", "anchors": ["ristra/io/catalyst/utils/catalystUtils.hpp:70-128", "ristra/io/catalyst/utils/stb_image.h:1049-1093"]}
{"id": "C160", "title": "TGA pictures", "statement": "stbi_load reads a TGA file as the picture that it holds: grey, with or without alpha, of 15, 16, 24 or 32 bits per pixel, or with a palette, with the pixels stored as they are or in packets, behind a text of any length, with the rows and the columns in either order. A palette may begin with any entry. A file whose end is missing, or that names a colour its palette does not have, is refused. No file makes the program read or write memory it must not touch.", "quantifier": "every width and height, every file of bytes, every sequence of packets", "why_tests_cant": "Packets of pixels can be cut in any way, also across rows, and every combination of depth, palette and row order goes through the same loop; which header makes it read behind its palette a test does not show, as nothing needs to happen.", "anchors": ["ristra/io/catalyst/utils/stb_image.h:5484-5498", "ristra/io/catalyst/utils/stb_image.h:5565-5817"]}
{"id": "C161", "title": "PSD pictures", "statement": "stbi_load reads a PSD file as the picture that it holds: of up to four channels of 8 or 16 bits, packed or not, behind blocks of any length, with colours that are not there taken as 0 and alpha as 255, and with colours laid over white undone where there is alpha. A file whose end is missing is refused. No file makes the program read or write memory it must not touch, and none makes it do arithmetic without a defined result.", "quantifier": "every width, height and number of channels, every file of bytes, every way of packing", "why_tests_cant": "Channels can be packed in any way, across rows, behind blocks of any length; which alpha and colour make the conversion to a byte undefined and from which height on a product overflows shows nothing in a test that runs through.", "anchors": ["ristra/io/catalyst/utils/stb_image.h:5818-6061"]}
{"id": "C162", "title": "PIC pictures", "statement": "stbi_load reads a PIC file as the picture that it holds: red, green and blue, and alpha if there is any, with the pixels stored as they are or in runs. A file whose end is missing, of samples that are not of 8 bits, or of a kind of runs that is not known is refused, and so is one for which there is no memory: imageCompare then says that it could not be loaded.", "quantifier": "every width and height, every number of packets, every file of bytes", "why_tests_cant": "What is refused is refused in some hundred places; that a refusal goes on with memory that is not there depends on whether there is alpha and on variables of the caller, for files that nobody keeps as a test.", "anchors": ["ristra/io/catalyst/utils/stb_image.h:6062-6268", "ristra/io/catalyst/utils/stb_image.h:1654-1696", "ristra/io/catalyst/utils/catalystUtils.hpp:70-87"]}
