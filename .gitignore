seeded/*.new
