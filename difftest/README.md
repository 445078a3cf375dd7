# Comparing the model with a second transcription of the code

The Rust code could not be built here. To check that the Lean model says what the code
says, the code was transcribed a second time, into Python, line by line from the Rust text.
The two transcriptions have the same author, so a misreading of Rust itself could be in both.
In Python the raw pointers are object references, the hash maps are
dictionaries, and `f64` is the machine's own double. Random inputs are given to both, in
debug and release mode, and the printed results (or panics) are compared.

This is a test of the model. No theorem depends on it.

* `compare_geometry.py SEED COUNT`: `simplify_edge`, `clip_edge`, and building a topology
  followed by up to four of `normalize`, `clip_topology` and `simplify`. All points, edge
  numbers, directions, and ring and region pointers are compared after every step.
* `compare_readers.py SEED COUNT`: a `.shp` and a `.dbf` file, well formed or damaged, read
  with `ShapefileGeoIterator`. Quantized rings, field values, error messages and panics are
  compared.

Both need `lake build` in `../lean` first.

Result (seeds 1 to 4, 182000 geometry cases; seeds 1 to 3, 63000 pairs of files): no
difference.
